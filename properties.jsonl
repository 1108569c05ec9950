{"id": "C01", "title": "Packed degree-of-freedom record keeps what was stored", "statement": "Building a degree-of-freedom record from an index, a sign flag and an orientation and reading it back yields the same index (up to 48 bits), the same orientation (up to 3 bits) and the sign that was stored; fields never leak into one another.", "quantifier": "every 48-bit index, every sign flag, every 3-bit orientation", "why_tests_cant": "2^52 records; a test samples a handful and the failing sign bit is not exercised by any test mesh with sign-free spaces", "anchors": ["src/serac/numerics/functional/element_restriction.hpp: struct DoF (ctor, sign, orientation, index)"]}
{"id": "C02", "title": "Signed index encoding round trip", "statement": "Decoding the library's signed-index convention (non-negative means +, -1-i means -) recovers the unsigned index and the sign, the decoded index is never negative, and no two encoded integers decode to the same pair.", "quantifier": "every integer dof number", "why_tests_cant": "needs all integers, including the boundary between 0 and -1", "anchors": ["src/serac/numerics/functional/dof_numbering.hpp: serac::SignedIndex, decodeSignedIndex"]}
{"id": "C03", "title": "Lexicographic node numbering is a bijection for every polynomial order", "statement": "For triangles, quadrilaterals, tetrahedra and hexahedra of any order p the formula that turns integer lattice coordinates into a node number hits every number in 0..N-1 exactly once, N being the number of nodes of that element.", "quantifier": "every polynomial order p and every lattice point of the reference element", "why_tests_cant": "tests only run p = 1, 2, 3", "anchors": ["src/serac/numerics/functional/element_restriction.cpp: tri_id, quad_id, tet_id, hex_id lambdas in face_permutations / geom_local_face_dofs"]}
{"id": "C04", "title": "Face orientation tables are permutations with the right group structure", "statement": "For each face geometry, order and orientation code, the table that reorders face nodes is a permutation of the face nodes, orientation 0 leaves them alone, and each table undoes exactly one table in the same family, so two elements sharing a face can always be brought to the same node order.", "quantifier": "every order p, each of the 2/6/8 orientation codes", "why_tests_cant": "tests only run low orders and the orientations that occur in the test meshes", "anchors": ["src/serac/numerics/functional/element_restriction.cpp: face_permutations"]}
{"id": "C05", "title": "Local face node tables select exactly the nodes of that face", "statement": "The table listing, for each local face of a triangle, quadrilateral, tetrahedron or hexahedron, the element node numbers on that face contains distinct, in-range node numbers which are precisely the element nodes lying on that face.", "quantifier": "every order p, every local face of every element type", "why_tests_cant": "tests only run low orders", "anchors": ["src/serac/numerics/functional/element_restriction.cpp: geom_local_face_dofs"]}
{"id": "C06", "title": "Component/node to vector-dof numbering is a bijection", "statement": "Under both orderings (by node and by vector dimension) the pair (node, component) maps one-to-one onto 0..num_nodes*components-1, and sign and orientation data are carried along unchanged.", "quantifier": "every number of nodes and components, both orderings", "why_tests_cant": "needs all sizes", "anchors": ["src/serac/numerics/functional/element_restriction.cpp: ElementRestriction::GetVDof"]}
{"id": "C07", "title": "Gather and ScatterAdd are exact transposes", "statement": "For every L-vector x and E-vector y, <Gather x, y> = <x, ScatterAdd y>, ScatterAdd accumulates (never overwrites) into its target, and untouched entries stay as they were; so assembled residuals and Jacobian actions are consistent.", "quantifier": "every dof table, every pair of vectors, any mesh size", "why_tests_cant": "needs arbitrary connectivity, including dofs shared by any number of elements", "anchors": ["src/serac/numerics/functional/element_restriction.cpp: ElementRestriction::Gather, ElementRestriction::ScatterAdd"]}
{"id": "C08", "title": "Block offsets partition the element vector", "statement": "For a mesh with several element geometries the per-geometry blocks of the element vector are contiguous, disjoint, cover the whole vector, and gather/scatter on the blocks together equal gather/scatter on the whole; reported sizes are the sums over blocks.", "quantifier": "every number of geometries and block sizes", "why_tests_cant": "tests use one or two geometries", "anchors": ["src/serac/numerics/functional/element_restriction.cpp: BlockElementRestriction (ESize, LSize, bOffsets, Gather, ScatterAdd)"]}
{"id": "C09", "title": "Sparse assembly tables are a valid CSR structure and address every contribution", "statement": "The row pointers, column indices and lookup table built from element dof lists form a valid CSR matrix: rows ascending, columns ascending within a row and without repetition, every (row, column) touched by an element has exactly one slot and the lookup finds it, so the assembled matrix times a vector equals the sum of element contributions.", "quantifier": "every list of (row, column) contributions, any number of rows, including none and trailing empty rows", "why_tests_cant": "needs all sparsity patterns; boundary-only or empty integrals leave rows untouched", "anchors": ["src/serac/numerics/functional/dof_numbering.hpp: GradientAssemblyLookupTables::init, operator()"]}
{"id": "C10", "title": "Domain construction selects exactly the entities satisfying the predicate", "statement": "A domain built from a predicate contains each mesh entity for which the predicate is true, once, in mesh order, filed under the right geometry with the right per-geometry position, and no others; entire-domain and entire-boundary contain everything.", "quantifier": "every mesh (list of entities with geometry, vertices and attribute) and every predicate", "why_tests_cant": "needs arbitrary mixed meshes and predicates", "anchors": ["src/serac/numerics/functional/domain.cpp: Domain::ofVertices, ofEdges, ofFaces, ofElements, ofBoundaryElements, EntireDomain, EntireBoundary"]}
{"id": "C11", "title": "Domain set operations are the set operations", "statement": "Union, intersection and difference of two domains of the same mesh contain exactly the entities in the union, intersection and difference, per geometry, sorted and without duplicates; and the dofs reported for the result are those of the entities it contains.", "quantifier": "every pair of domains built by this API", "why_tests_cant": "needs all pairs of entity sets", "anchors": ["src/serac/numerics/functional/domain.cpp: operator|, operator&, operator-, Domain::dof_list"]}
{"id": "C12", "title": "Dual-number arithmetic returns the true derivative", "statement": "For any expression built from the arithmetic operators and elementary functions the library supports on dual numbers, the value is the value of the plain expression and the gradient is its derivative, wherever the expression is differentiable.", "quantifier": "every expression tree, every evaluation point in its domain of differentiability", "why_tests_cant": "tests compare with finite differences at a few points and a few expressions", "anchors": ["src/serac/numerics/functional/dual.hpp: dual operators, cos, sin, sqrt, exp, log, pow, abs, max, min"]}
{"id": "C13", "title": "Small-tensor algebra identities", "statement": "For all 2x2 and 3x3 inputs: inverse times matrix is the identity when the determinant is non-zero, the accurate det(A+I)-1 helper equals det(A+I)-1, the deviator is trace-free (3D), determinants are multiplicative, sym+antisym restores the matrix, and derivative-carrying inverses carry the true derivative.", "quantifier": "every real 2x2 / 3x3 matrix", "why_tests_cant": "identities over a continuum", "anchors": ["src/serac/numerics/functional/tensor.hpp: det, detApIm1, inv, dev, sym, antisym, tr, dot; tuple_tensor_dual_functions.hpp: inv"]}
{"id": "C14", "title": "Dense LU solve solves every solvable system", "statement": "For every invertible matrix the small dense solver returns x with A x = b: the factors satisfy P A = L U with unit-diagonal lower L and upper U, and no pivot division by zero occurs.", "quantifier": "every dimension n, every invertible matrix, every right-hand side", "why_tests_cant": "the failing matrices form a thin set which random or hand-picked tests miss", "anchors": ["src/serac/numerics/functional/tuple_tensor_dual_functions.hpp: factorize_lu, linear_solve; tensor.hpp: solve_lower_triangular, solve_upper_triangular"]}
{"id": "C15", "title": "Bracketed scalar solver keeps its guarantees", "statement": "The safeguarded Newton/bisection root finder reports an error if the bracket has no sign change; otherwise every iterate and the result stay in the bracket, the bracket always encloses a sign change and only shrinks, it stops within the iteration budget, and a result reported as converged satisfies one of the two tolerances.", "quantifier": "every function, derivative, bracket, starting point, tolerance and iteration limit", "why_tests_cant": "depends on adversarial functions and derivatives", "anchors": ["src/serac/numerics/functional/tuple_tensor_dual_functions.hpp: solve_scalar_equation, ScalarSolverOptions"]}
{"id": "C16", "title": "One-dimensional polynomial families are what they claim", "statement": "For every degree the routines producing monomials, Chebyshev (both kinds), Legendre and Bernstein values return exactly those polynomials: they agree with the standard definitions, Bernstein values sum to one and are the binomial expressions.", "quantifier": "every degree n and every real evaluation point", "why_tests_cant": "tests sample small n and a few points", "anchors": ["src/serac/numerics/functional/polynomials.hpp: factorial, powers, ChebyshevT, ChebyshevU, Legendre, Bernstein"]}
{"id": "C17", "title": "Nodal bases interpolate", "statement": "The hard-coded Gauss-Lobatto and Gauss-Legendre nodal bases are 1 at their own node, 0 at the others, sum to one, and their derivative routine returns the derivative; element shape functions built from them inherit this.", "quantifier": "every evaluation point, every implemented order", "why_tests_cant": "polynomial identities over a continuum", "anchors": ["src/serac/numerics/functional/polynomials.hpp: GaussLobattoInterpolation, GaussLegendreInterpolation and derivatives", "src/serac/numerics/functional/detail/quadrilateral_H1.inl", "src/serac/numerics/functional/detail/triangle_H1.inl", "src/serac/numerics/functional/detail/hexahedron_H1.inl"]}
{"id": "C18", "title": "Reference/physical coordinate transforms preserve the weak form", "statement": "Pulling solution data from the reference to the physical element, applying a pointwise q-function, and pushing its outputs back yields the same integral contribution as evaluating the weak form directly in physical coordinates, for H1, Hcurl and L2 families, for every invertible Jacobian.", "quantifier": "every invertible Jacobian, every q-function output", "why_tests_cant": "continuum of Jacobians", "anchors": ["src/serac/numerics/functional/finite_element.hpp: parent_to_physical, physical_to_parent"]}
{"id": "C19", "title": "Shape-aware integrals equal integrals on the deformed mesh", "statement": "Evaluating an integral on a mesh with a shape displacement field gives the same contribution as evaluating the plain integral on the displaced configuration: values, gradients and curls are those on the displaced element, and the measure is corrected by the determinant or the boundary area ratio.", "quantifier": "every orientation-preserving displacement gradient and parent Jacobian, every supported space", "why_tests_cant": "continuum of shape gradients; curl-space case is not tested in 3D", "anchors": ["src/serac/numerics/functional/shape_aware_functional.hpp: ShapeCorrection, compute_boundary_area_correction"]}
{"id": "C20", "title": "Second-order transient solver enforces prescribed displacement", "statement": "During a transient solve, on constrained dofs the displacement used in every implicit stage equals the prescribed boundary value at the stage time, whichever enforcement method is selected, and unconstrained dofs are not altered by the constraint machinery; each enforcement method's acceleration is the one its documentation gives.", "quantifier": "every boundary history, time step sequence, constraint set and enforcement method", "why_tests_cant": "needs all histories and time step sequences", "anchors": ["src/serac/numerics/odes.cpp: SecondOrderODE::Solve, ImplicitSolve, Step", "src/serac/numerics/solver_config.hpp: DirichletEnforcementMethod"]}
{"id": "C21", "title": "First-order transient solver enforces prescribed values", "statement": "During a first-order transient solve the constrained dofs take the prescribed value at the end of each implicit step and the rate is the enforcement method's documented rate; free dofs are untouched by the constraint machinery.", "quantifier": "every boundary history, time step sequence, constraint set and enforcement method", "why_tests_cant": "needs all histories and time step sequences", "anchors": ["src/serac/numerics/odes.cpp: FirstOrderODE::Solve"]}
{"id": "C22", "title": "Selecting a time integrator always leaves the solver using exactly that integrator", "statement": "After any sequence of integrator selections the object steps with the last selected method, applied to a state vector of the right width.", "quantifier": "every sequence of selections", "why_tests_cant": "tests select once", "anchors": ["src/serac/numerics/odes.cpp: SecondOrderODE::SetTimestepper, Step; FirstOrderODE::SetTimestepper"]}
{"id": "C23", "title": "Newton solver: termination and truthful convergence report", "statement": "The Newton solver stops within its iteration budget; when it reports convergence the final residual norm meets the absolute or relative tolerance; when it does not, the report is not left over from an earlier call; line search never evaluates more than its budget and never accepts a step whose residual it did not evaluate.", "quantifier": "every residual function (including ones that throw or return NaN), tolerance and budget, every sequence of calls on one solver object", "why_tests_cant": "depends on adversarial residuals and on call history", "anchors": ["src/serac/numerics/equation_solver.cpp: NewtonSolver::Mult, evaluateNorm"]}
{"id": "C24", "title": "Trust-region solver: steps stay inside the trust region and the radius is adapted consistently", "statement": "Every model step (dogleg or projected CG) has length at most the trust-region radius, a boundary projection lands exactly on it, the radius only changes by the documented factors, and the solver stops within its iteration budget with a truthful report.", "quantifier": "every Hessian action, residual, preconditioner and radius", "why_tests_cant": "continuum of inputs and iteration histories", "anchors": ["src/serac/numerics/equation_solver.cpp: TrustRegion::projectToBoundaryWithCoefs, doglegStep, solveTrustRegionModelProblem, Mult"]}
{"id": "C25", "title": "Essential boundary condition bookkeeping", "statement": "After any sequence of boundary-condition additions, the set of constrained true dofs is the sorted, duplicate-free union of the dofs of all registered essential conditions, is never stale, and every requested condition is registered.", "quantifier": "every sequence of additions and queries", "why_tests_cant": "needs all interleavings of additions and queries, and several components on one attribute", "anchors": ["src/serac/physics/boundary_conditions/boundary_condition_manager.cpp: addEssential, updateAllDofs", "src/serac/physics/boundary_conditions/boundary_condition_manager.hpp: allEssentialTrueDofs"]}
{"id": "C26", "title": "Eliminating constrained dofs preserves the constrained solution", "statement": "Eliminating the essential rows and columns, one condition after another or all at once, yields a system whose solution has the prescribed values on constrained dofs and solves the original equations on the free dofs; a Newton iterate that starts with the prescribed values keeps them exactly.", "quantifier": "every matrix, right-hand side and constrained set", "why_tests_cant": "all matrices and dof sets", "anchors": ["src/serac/physics/boundary_conditions/boundary_condition.cpp: BoundaryCondition::apply", "src/serac/physics/solid_mechanics.hpp: buildQuasistaticOperator"]}
{"id": "C27", "title": "Checkpointed history is recoverable", "statement": "After any sequence of forward steps, resets and reverse steps, asking for the state at an already completed cycle returns exactly the state the simulation had at that cycle, with the matching time step size, and asking does not disturb the live state.", "quantifier": "every sequence of advance / reverse / query calls, memory or disk checkpoints, any starting cycle", "why_tests_cant": "needs all histories; tests go once forward and once back", "anchors": ["src/serac/physics/base_physics.cpp: loadCheckpointedState, getCheckpointedStates, getCheckpointedTimestep", "src/serac/physics/solid_mechanics.hpp: advanceTimestep, reverseAdjointTimestep", "src/serac/physics/heat_transfer.hpp: advanceTimestep, reverseAdjointTimestep"]}
{"id": "C28", "title": "Restart restores the saved fields", "statement": "Saving at a cycle, then loading that cycle and rebuilding the physics module yields fields equal to those saved, so that continuing after a restart equals never having stopped.", "quantifier": "every saved field content and every cycle", "why_tests_cant": "needs arbitrary crash points and field contents", "anchors": ["src/serac/physics/state/state_manager.cpp: loadCheckpointedStates, storeState, newState, save, constructShapeFields", "src/serac/physics/solid_mechanics.hpp: initializeSolidMechanicsStates", "src/serac/physics/heat_transfer.hpp: initializeThermalStates"]}
{"id": "C29", "title": "Dynamic (Newmark) adjoint gives the exact gradient", "statement": "For a linear(ised) dynamic solve with the implicit Newmark scheme, running the adjoint backwards over all time steps yields exactly the derivative of the objective with respect to the initial displacement and initial velocity, for any number of steps and any time step sizes.", "quantifier": "every number of steps, step sizes, stiffness/mass operators and adjoint loads", "why_tests_cant": "tests compare finite differences on one problem and one time step sequence without velocity loads", "anchors": ["src/serac/physics/solid_mechanics.cpp: detail::adjoint_integrate", "src/serac/physics/solid_mechanics.hpp: reverseAdjointTimestep"]}
{"id": "C30", "title": "Transient thermal adjoint gives the exact gradient", "statement": "For the backward-Euler heat solve, running the adjoint backwards over all time steps yields exactly the derivative of the objective with respect to the initial temperature, for any number of steps and step sizes.", "quantifier": "every number of steps, step sizes, operators and loads", "why_tests_cant": "tests compare finite differences on one problem", "anchors": ["src/serac/physics/heat_transfer.hpp: reverseAdjointTimestep"]}
{"id": "C31", "title": "Elastic material models: frame indifference, symmetry and stress-free reference", "statement": "Linear isotropic, St. Venant-Kirchhoff and neo-Hookean models give zero stress for zero displacement gradient, symmetric Kirchhoff/Cauchy stress (angular momentum balance), and (for the finite-deformation ones) rotate correctly under superposed rigid rotation; they agree with small-strain linear elasticity to first order.", "quantifier": "every displacement gradient, rotation and admissible moduli", "why_tests_cant": "continuum of inputs", "anchors": ["src/serac/physics/materials/solid_material.hpp: LinearIsotropic, StVenantKirchhoff, NeoHookean"]}
{"id": "C32", "title": "J2 plasticity return mapping is consistent", "statement": "After a plastic update the equivalent stress sits on the hardened yield surface, plastic strain stays trace-free and symmetric, accumulated plastic strain never decreases along any strain history, elastic steps leave the internal state alone and re-evaluating at the same strain changes nothing further.", "quantifier": "every strain history, hardening law and admissible moduli", "why_tests_cant": "path-dependent: all histories", "anchors": ["src/serac/physics/materials/solid_material.hpp: J2SmallStrain, LinearHardening, PowerLawHardening, VoceHardening"]}
{"id": "C33", "title": "Stress-measure conversion and geometric-nonlinearity switch", "statement": "Converting Kirchhoff or Cauchy stress to first Piola stress satisfies the defining transport identities for every invertible deformation gradient, preserves power conjugacy, and with geometric nonlinearity off the integrand uses the stress unchanged.", "quantifier": "every invertible deformation gradient and symmetric stress (for the integrand, any stress)", "why_tests_cant": "continuum of inputs", "anchors": ["src/serac/physics/materials/solid_material.hpp: KirchhoffToPiola, CauchyToPiola", "src/serac/physics/solid_mechanics.hpp: MaterialStressFunctor"]}
{"id": "C34", "title": "Contact pressure and gap vectors are laid out disjointly", "statement": "The pressure dofs of the Lagrange-multiplier interactions occupy consecutive disjoint ranges covering the merged vector; merging then splitting returns each interaction its own pressures; penalty interactions take no space.", "quantifier": "every list of interactions and sizes, any order of insertion", "why_tests_cant": "needs arbitrary numbers of interactions", "anchors": ["src/serac/physics/contact/contact_data.cpp: updateDofOffsets, mergedPressures, mergedGaps, setPressures, addContactInteraction"]}
{"id": "C35", "title": "Contact active set: inactive multipliers are decoupled, compressive only", "statement": "For inactive contact dofs the linear system reduces to the identity equation for the multiplier, active ones keep the gap equation, rows of one interaction never affect another's, and pressures assigned by penalty are compressive.", "quantifier": "every set of gaps and pressures, any mix of penalty and multiplier interactions", "why_tests_cant": "needs every active set and mixed interactions", "anchors": ["src/serac/physics/contact/contact_data.cpp: mergedJacobian, residualFunction, setPressures", "src/serac/physics/contact/contact_interaction.cpp: inactiveDofs"]}
{"id": "C36", "title": "Driver time loop reaches the final time exactly and stops", "statement": "With positive step and a final time at or after the start, the driver takes finitely many steps, each of positive size at most the requested one, never passes the final time, ends at it (to the loop's tolerance), and the cycle count equals the number of steps taken.", "quantifier": "every start time, final time and step size", "why_tests_cant": "continuum of inputs, boundary cases where the step divides the interval", "anchors": ["src/drivers/serac.cpp: main"]}
{"id": "C37", "title": "Input coefficient options: exactly one definition, right type, right lookup", "statement": "A coefficient entry in the input is accepted exactly when precisely one of its definitions is present; asking for a vector or scalar coefficient of an entry of the other kind is refused; piecewise constants return the value given for the queried attribute and zero elsewhere.", "quantifier": "every combination of entries, every attribute table", "why_tests_cant": "combinatorial: all presence combinations", "anchors": ["src/serac/infrastructure/input.cpp: CoefficientInputOptions FromInlet, isVector, constructVector, constructScalar, BoundaryConditionInputOptions"]}
{"id": "C38", "title": "Field-name prefixing round trip", "statement": "Removing a module's prefix from a prefixed name returns the original name, distinct names stay distinct, and with an empty module name names are unchanged.", "quantifier": "every module name and field name", "why_tests_cant": "all strings", "anchors": ["src/serac/physics/base_physics.cpp: detail::addPrefix, detail::removePrefix"]}
{"id": "C39", "title": "Generated ring meshes are conforming", "statement": "The generated ring (full or partial angle, any number of refinements) has in-range vertex numbers, every element has positive orientation, neighbouring elements share exactly one full edge, and the full ring closes on itself.", "quantifier": "every number of angular and radial elements", "why_tests_cant": "all sizes", "anchors": ["src/serac/mesh/mesh_utils.cpp: build_ring / buildRing, squish"]}
{"id": "C40", "title": "Coupled thermomechanics keeps its sub-solvers in step", "statement": "In a coupled solve both sub-physics are advanced by the same step, use each other's latest fields, and the coupled time and cycle always equal those of both parts.", "quantifier": "every sequence of steps, start time and cycle", "why_tests_cant": "all histories and start points", "anchors": ["src/serac/physics/thermomechanics.hpp: Thermomechanics ctor, advanceTimestep, setMaterial, ThermalMaterialInterface"]}
{"id": "C41", "title": "Residual evaluation does not disturb material history", "statement": "Evaluating a residual, Jacobian or action never changes quadrature-point material state; only the designated update evaluation does, and it replaces each point's state with the one computed from that point's own old state.", "quantifier": "every sequence of evaluations and updates, any number of elements and points", "why_tests_cant": "all interleavings of evaluations", "anchors": ["src/serac/numerics/functional/domain_integral_kernels.hpp: evaluation_kernel_impl", "src/serac/numerics/functional/functional.hpp: update_qdata", "src/serac/physics/solid_mechanics.hpp: setMaterial, completeSetup"]}
{"id": "C42", "title": "Sum-factorised evaluation equals direct evaluation", "statement": "On quadrilaterals and hexahedra the tensor-contraction evaluation of values and gradients equals the direct sum over nodes of shape function times nodal value, and the integration step is its exact transpose.", "quantifier": "every nodal data, every 1D basis table, any number of nodes and points per direction", "why_tests_cant": "all data and all orders", "anchors": ["src/serac/numerics/functional/detail/quadrilateral_H1.inl: interpolate, integrate", "src/serac/numerics/functional/detail/hexahedron_H1.inl: interpolate, integrate"]}
{"id": "C43", "title": "Isotropic tensor shortcuts equal the full tensors", "statement": "The compressed isotropic tensors (identity multiples, Levi-Civita multiples, 4th order isotropic) give the same results in every supported product as the full tensors they stand for.", "quantifier": "every coefficient and every operand", "why_tests_cant": "continuum of inputs", "anchors": ["src/serac/numerics/functional/isotropic_tensor.hpp"]}
{"id": "C44", "title": "Linear/nonlinear solver option decoding", "statement": "Every documented option string for the linear and nonlinear solver is accepted and yields the solver it names, every other string is refused, and each accepted option set builds a solver configured with the given tolerances.", "quantifier": "every option string and every option record", "why_tests_cant": "all strings and combinations", "anchors": ["src/serac/numerics/equation_solver.cpp: defineInputFileSchema, FromInlet, buildNonlinearSolver, buildLinearSolver, buildPreconditioner"]}
{"id": "C45", "title": "Time of a transient module", "statement": "After advanceTimestep calls with sizes dt1, ..., dtn a transient module's time is the start time plus their sum, for every time integrator that can be selected, and every stage's loads and boundary values are evaluated at the stage's own time.", "quantifier": "every integrator, start time and sequence of step sizes", "why_tests_cant": "all step sequences and integrators; tests use backward Euler or Newmark with constant loads", "anchors": ["src/serac/physics/heat_transfer.hpp: advanceTimestep, reverseAdjointTimestep", "src/serac/physics/solid_mechanics.hpp: advanceTimestep", "src/serac/numerics/odes.cpp: Solve, SetTimestepper"]}
{"id": "C46", "title": "Quasi-static steps use the loads of the end of the step", "statement": "Each quasi-static step solves with loads and boundary values at the module's new time, with or without contact, whatever the enforcement of the contact constraints.", "quantifier": "every sequence of step sizes, every load history, every contact enforcement", "why_tests_cant": "all load histories; contact tests use constant loads", "anchors": ["src/serac/physics/solid_mechanics.hpp: quasiStaticSolve", "src/serac/physics/solid_mechanics_contact.hpp: buildQuasistaticOperator, quasiStaticSolve", "src/serac/physics/base_physics.cpp: initializeBasePhysicsStates"]}
{"id": "C47", "title": "Materials in an input file", "statement": "A material that can be written in an input file is read back exactly, every numeric entry of an accepted table is used, every other table is refused, and decoding never has undefined behaviour.", "quantifier": "every table of entries, every material", "why_tests_cant": "all combinations of present, absent and mistyped entries", "anchors": ["src/serac/physics/materials/hardening_input.cpp", "src/serac/physics/materials/solid_material_input.cpp", "src/serac/physics/materials/thermal_material_input.cpp"]}
{"id": "C48", "title": "The module built from an input file honours the file", "statement": "The driver builds the module the input file asks for, with the file's order, the mesh's dimension, every material, initial condition and boundary condition of the file applied, and a result that does not depend on the traversal order of hash maps; any file it cannot honour is refused with an error.", "quantifier": "every combination of physics blocks, materials, boundary conditions, orders and dimensions", "why_tests_cant": "all files; the shipped input files exercise a handful", "anchors": ["src/drivers/serac.cpp: createPhysics, getOrder, main", "src/serac/physics/solid_mechanics.hpp: SolidMechanics(input_options)", "src/serac/physics/heat_transfer.hpp: HeatTransfer(input_options)", "src/serac/physics/thermomechanics.hpp: Thermomechanics(options)", "src/serac/numerics/odes.cpp: SetTimestepper"]}
{"id": "C49", "title": "Heat flows down the temperature gradient", "statement": "Every heat conductor whose constructor does not stop has a non-negative heat capacity and a flux q with q . grad T <= 0 for every temperature and gradient, and a symmetric positive definite conductivity is never refused.", "quantifier": "every density, capacity, conductivity, temperature and gradient", "why_tests_cant": "continuum of inputs", "anchors": ["src/serac/physics/materials/thermal_material.hpp", "src/serac/numerics/functional/tensor.hpp: is_symmetric_and_positive_definite"]}
{"id": "C50", "title": "Quadrature is exact for the element's own integrals", "statement": "With the number of points Functional chooses for a space of order p, integrals over the reference element (and so over every affine element) of products of two functions of the space, or of two of their derivatives, are exact up to the rounding of the tabulated numbers; points lie inside the element, weights are positive, and there are as many points as the buffers hold.", "quantifier": "every order with a table, every pair of polynomials of the space, every geometry", "why_tests_cant": "infinitely many polynomials; tests compare a few integrals with a loose tolerance", "anchors": ["src/serac/numerics/functional/polynomials.hpp: GaussLegendreNodes, GaussLegendreWeights", "src/serac/numerics/functional/quadrature.hpp: GaussQuadratureRule", "src/serac/numerics/functional/geometry.hpp: num_quadrature_points", "src/serac/numerics/functional/functional.hpp: Q"]}
{"id": "C51", "title": "Element matrices and directional derivatives are the derivative of the element residual", "statement": "For every weak form, the directional derivative an element computes is the derivative of its residual along that direction, and the element matrix times the vector is the same directional derivative, for segments, triangles, quadrilaterals, tetrahedra, hexahedra and quantities of interest.", "quantifier": "every polynomial order, number of components, quadrature rule, weak form, element data and direction", "why_tests_cant": "continuum of states and directions, every weak form; tests use finite differences on a few", "anchors": ["src/serac/numerics/functional/domain_integral_kernels.hpp: evaluation_kernel_impl, action_of_gradient_kernel, element_gradient_kernel", "src/serac/numerics/functional/detail/hexahedron_H1.inl", "src/serac/numerics/functional/detail/quadrilateral_H1.inl", "src/serac/numerics/functional/detail/triangle_H1.inl", "src/serac/numerics/functional/detail/tetrahedron_H1.inl", "src/serac/numerics/functional/detail/segment_H1.inl", "src/serac/numerics/functional/detail/qoi.inl"]}
{"id": "C52", "title": "A gradient object is the derivative at the evaluation it came from", "statement": "After any sequence of evaluations, gradient actions, flag changes and added integrals, the vector returned by an evaluation is the residual at its arguments, and the gradient object of an argument acts as the derivative of the residual at the arguments, time and material state of the latest evaluation that differentiated with respect to that argument; before such an evaluation its use is undefined exactly if an integral depends on the argument.", "quantifier": "every set of integrals, every call sequence, every argument and direction", "why_tests_cant": "unboundedly many interleavings of evaluations and gradient uses sharing one object's buffers; tests use each gradient right after its evaluation", "anchors": ["src/serac/numerics/functional/functional.hpp: operator(), ActionOfGradient, Gradient", "src/serac/numerics/functional/integral.hpp: Mult, GradientMult, generate_kernels"]}
{"id": "C53", "title": "The assembled gradient equals its action on every mesh", "statement": "The sparse matrix assembled from a gradient object times any vector equals the action of the gradient object on that vector, for any number of integrals over elements and boundary elements, on meshes that mix geometries, for every pair of function spaces; the lookup of every entry succeeds.", "quantifier": "every mesh, every mixture of geometries, every set of integrals, every element matrix, every vector, every function space", "why_tests_cant": "unbounded meshes and integral sets; tests compare a few meshes with one vector", "anchors": ["src/serac/numerics/functional/functional.hpp: assemble, ActionOfGradient", "src/serac/numerics/functional/integral.hpp: ComputeElementGradients, GradientMult", "src/serac/numerics/functional/dof_numbering.hpp: GradientAssemblyLookupTables::init", "src/serac/numerics/functional/element_restriction.cpp: Gather, ScatterAdd, GetElementRestriction"]}
{"id": "C54", "title": "The thermoelastic material obeys thermodynamics", "statement": "For the Green-Saint Venant thermoelastic material and its parameterized version: along every path of displacement gradients and temperatures the free energy changes at the rate P:dH - eta dtheta, with P the stress of the solid mechanics integrand and eta minus the temperature derivative of the free energy; the returned heat capacity is theta d(eta)/d(theta); the heat source of every step of every history is -theta times the entropy change due to strain, so isothermal cycles generate no net heat; heat flows from hot to cold; the stress is symmetric, frame indifferent, zero exactly for free thermal expansion and that of St. Venant-Kirchhoff at the reference temperature; and the coupled module passes stress, heat capacity, flux and heat source of the material on to its two sub-modules.", "quantifier": "every material with admissible Poisson ratio and positive reference temperature, every invertible deformation, every positive temperature, every history of steps", "why_tests_cant": "continuum of paths and histories of any length; tests compare a few stresses with automatic derivatives", "anchors": ["src/serac/physics/materials/green_saint_venant_thermoelastic.hpp", "src/serac/physics/thermomechanics.hpp: ThermalMaterialInterface, MechanicalMaterialInterface"]}
{"id": "C55", "title": "eig_symm returns the eigenvalues and eigenvectors of a symmetric matrix", "statement": "For every symmetric 3x3 matrix A, eig_symm returns without undefined operations; the columns of the returned matrix are orthonormal, the values ascend, add up to the trace, and are the eigenvalues of A with multiplicity; each column is an eigenvector for its value.", "quantifier": "every symmetric real 3x3 matrix", "why_tests_cant": "continuum of matrices; the failing ones form a thin set between generic matrices that tests with random entries do not meet", "anchors": ["src/serac/numerics/functional/tuple_tensor_dual_functions.hpp: eig_symm, argsort, sgn", "src/serac/numerics/functional/tensor.hpp: norm, normalize"]}
{"id": "C56", "title": "sqrt_symm, exp_symm and log_symm are the matrix functions and carry their derivatives", "statement": "For symmetric 3x3 matrices exp_symm is the matrix exponential; log_symm of a positive definite matrix is the unique symmetric matrix with that exponential and undoes exp_symm; sqrt_symm of a positive definite matrix is the unique positive definite symmetric matrix whose square it is; rotating the argument rotates the result, for every scalar function; and the gradient carried by dual numbers is the derivative of the result along every differentiable path, also where eigenvalues coincide.", "quantifier": "every symmetric matrix eig_symm decomposes exactly, every scalar function, every differentiable path of matrices", "why_tests_cant": "continuum of matrices, paths and directions; repeated eigenvalues are a thin set", "anchors": ["src/serac/numerics/functional/tuple_tensor_dual_functions.hpp: symmetric_mat3_function, symmetric_mat3_function_with_derivative, log_symm, exp_symm, sqrt_symm"]}
{"id": "C57", "title": "Finite deformation J2 plasticity obeys its flow rule, preserves volume and derives from its energy", "statement": "For every history of non-singular deformations the constitutive update is defined, keeps the determinant of the plastic distortion at one and never lowers the accumulated plastic strain; rotating the body rotates the stress and leaves the state alone; the returned Cauchy stress is symmetric and is Hencky's stress of the elastic strain that remains after the update, the derivative of the stored energy along every path; the step is elastic exactly if the trial stress is inside the hardened yield surface, otherwise the stress ends on it to the tolerance; and a second evaluation with the updated state returns the same stress without plastic flow.", "quantifier": "every elastic modulus and Poisson ratio above -1 other than 1/2, every non-decreasing hardening law, every admissible state, every history of any length, every path", "why_tests_cant": "continuum of deformations and histories; tests integrate one uniaxial history", "anchors": ["src/serac/physics/materials/solid_material.hpp: J2", "src/serac/numerics/functional/tuple_tensor_dual_functions.hpp: log_symm, exp_symm, solve_scalar_equation"]}
{"id": "C58", "title": "Hcurl elements on quadrilaterals and hexahedra represent tangentially continuous fields with their curls", "statement": "The values and curls computed by sum factorisation at the quadrature points are those of the combination of shape functions, and the curl is the curl of that field on the parent and on the physical element; integration of sources and fluxes is the transpose; applying derivative blocks to a shape function is applying them to the interpolated unit vector, so element matrices agree with directional derivatives; every dof is the component along its direction at its node; the tangential trace on an edge or face depends only on the dofs of that edge or face, so neighbouring elements sharing them are tangentially continuous; and no memory outside the tables is read.", "quantifier": "every order, every number of points, every dof vector, every one-dimensional basis and rule; the code's bases for orders one to three", "why_tests_cant": "all orders, all vectors and all points; tests compare finite differences of one residual on a few meshes", "anchors": ["src/serac/numerics/functional/detail/quadrilateral_Hcurl.inl", "src/serac/numerics/functional/detail/hexahedron_Hcurl.inl", "src/serac/numerics/functional/finite_element.hpp: parent_to_physical"]}
{"id": "C59", "title": "Sensitivities of a quasi-static analysis are exact", "statement": "After any number of quasi-static steps, stepping back with the derivatives of an objective as loads gives sensitivities whose sum is the derivative of the objective, through the nonlinear solves, with respect to the parameter or the shape; a second pass after resetting gives the same; the sensitivities of a reaction add up to the derivative of the reactions the analysis returned, for every step and every direction.", "quantifier": "every residual and every number of dofs, parameters, steps and step sizes, every differentiable objective, every boundary condition that does not depend on the parameter", "why_tests_cant": "quantifies over nonlinear problems, objectives and histories; tests check one parameter of one problem with one step against finite differences", "anchors": ["src/serac/physics/solid_mechanics.hpp: advanceTimestep, setAdjointLoad, reverseAdjointTimestep, computeTimestepSensitivity, computeTimestepShapeSensitivity, computeDualAdjointLoad, computeDualSensitivity, computeDualShapeSensitivity", "src/serac/physics/base_physics.hpp: resetAdjointStates"]}
{"id": "C60", "title": "The tangent of small strain plasticity is the derivative of its stress", "statement": "Evaluating J2SmallStrain with dual numbers gives the same stress and state as with plain numbers, and the gradient it returns is the derivative of the stress with respect to the strain: Hooke's law inside the yield surface, and in a converged plastic step the derivative of the exact return mapping, through the scalar solve; the tangent is symmetric and positive semidefinite, and definite with hardening, so that Newton's method sees the true stiffness.", "quantifier": "every admissible material and state, every displacement gradient, every direction, every differentiable hardening law", "why_tests_cant": "a derivative over all states, strains and directions; tests compare with finite differences for one material and one strain path", "anchors": ["src/serac/physics/materials/solid_material.hpp: J2SmallStrain::operator()", "src/serac/numerics/functional/tuple_tensor_dual_functions.hpp: solve_scalar_equation"]}
{"id": "C61", "title": "Quantities of interest evaluate to the sum of their integrals and their gradients are exact", "statement": "A Functional with scalar output returns the sum of its integrals over all elements of all processors at the arguments of the call, whatever was called before; an added integral adds its value. After evaluating with one argument differentiated, the gradient object's action on a direction equals the product with the assembled gradient, and both are the derivative of the value at those arguments, until that argument is differentiated again; the value returned together with the gradient keeps its meaning.", "quantifier": "every mesh of every number of processors, every number of spaces, integrals and geometries, every argument and direction, every sequence of calls", "why_tests_cant": "a statement about all call sequences and meshes; tests check one evaluation and one finite difference for a few integrands, and never read the value after using the gradient", "anchors": ["src/serac/numerics/functional/functional_qoi.inl: Functional<double(trials...)>, operator(), ActionOfGradient, Gradient::assemble, AddDomainIntegral, AddBoundaryIntegral, QoIProlongation, QoIElementRestriction"]}
{"id": "C62", "title": "Liquid crystal elastomer models respond like elastic solids", "statement": "For every history of orientation-preserving deformations, temperatures and director angles the two liquid crystal elastomer materials return a symmetric stress; a rigid rotation of the unstressed body at constant temperature leaves it unstressed; the stress refers to the undeformed body and not to the first deformation seen; turning specimen and director together turns the stress; repeating a call or cycling the temperature changes nothing; the chain parameter, said to cancel, has no influence; Bertoldi's stress is the gradient of the energy it reports and every accepted parameter set is stable.", "quantifier": "every parameter set accepted by the constructors, every history of any length, every deformation, temperature, director and order parameter", "why_tests_cant": "quantifies over all deformation histories and rotations; the tests integrate a few uniaxial or thermal paths and compare with stored numbers", "anchors": ["src/serac/physics/materials/liquid_crystal_elastomer.hpp: LiquidCrystElastomerBrighenti, LiquidCrystalElastomerBertoldi", "src/serac/numerics/functional/tensor.hpp: matrix_sqrt"]}
{"id": "C63", "title": "The two-element variant keeps the last value and destroys what it creates", "statement": "A serac::variant constructed from a value and then assigned any values answers index, get, holds_alternative, get_if and visit as the value assigned last, whichever alternatives were involved; a value whose type is one of the two alternatives is held as that alternative; every object the variant creates is destroyed exactly once; copies show the same value; retrieve gives the object of an owning or non-owning pointer.", "quantifier": "every pair of types, every sequence of constructions and assignments of any length", "why_tests_cant": "quantifies over types and histories; undefined behaviour on dead objects usually goes unnoticed in a test", "anchors": ["src/serac/infrastructure/variant.hpp: variant_storage, variant, get, visit, holds_alternative, get_if, MaybeOwningPointer, retrieve", "src/serac/physics/state/finite_element_vector.hpp: GeneralCoefficient"]}
{"id": "C64", "title": "Generated disk, ball, cylinder and quarter cylinder meshes are what their names say", "statement": "For every requested number of elements, buildDiskMesh and buildBallMesh return one mesh, of at least half (a quarter) and, once refined, less than twice the requested number of elements; it is conforming, lies in the unit disk or ball with its boundary vertices on the unit circle or sphere, and no element is inverted. Refining it later keeps the boundary vertices on the circle. The cross section of buildCylinderMesh has its boundary vertices at the given radius after any refinement. build_hollow_quarter_cylinder fills the quarter of the shell between the two radii and planes with elements of positive Jacobian, or reports an error.", "quantifier": "every requested number of elements, number of refinements and subdivisions, radii and heights; every point of every element", "why_tests_cant": "quantifies over all refinement levels and all elements; tests look at one or two small meshes", "anchors": ["src/serac/mesh/mesh_utils.cpp: squish, buildDiskMesh, buildBallMesh, buildCylinderMesh, build_hollow_quarter_cylinder"]}
{"id": "C65", "title": "Pressures, tractions, body forces and heat fluxes act with the stated direction, size and place", "statement": "At every boundary point a pressure load is the pressure at the reference position times the area vector of the face, of the deformed face when geometric nonlinearities are on (det F F^-T N), and a traction or heat flux is the user's value times the reference area, all taken on the shape-displaced mesh; a pressure p on an undeformed body equals the traction -p n. A uniform pressure on a closed surface has no net force and no net moment in any configuration and is conservative. The residuals of all nodes add up to inertia minus body forces plus boundary loads.", "quantifier": "every face, shape displacement, displacement, load function and time; every closed triangulated surface and configuration; every partition of unity and quadrature rule", "why_tests_cant": "quantifies over all deformed configurations and surfaces; tests apply one load to one mesh", "anchors": ["src/serac/physics/solid_mechanics.hpp: setTraction, setPressure, addBodyForce", "src/serac/physics/heat_transfer.hpp: setSource, setFluxBCs", "src/serac/numerics/functional/boundary_integral_kernels.hpp: evaluation kernel", "src/serac/numerics/functional/shape_aware_functional.hpp: AddBoundaryIntegral"]}
{"id": "C66", "title": "find_root returns a root and the material drivers record true uniaxial experiments", "statement": "find_root returns a point whose residual is below its tolerance. uniaxial_stress_test and single_quadrature_point_test return the requested number of records at evenly spaced times; every record is what the material answers, from the state of the record before, to the recorded strain; the axial strain is the prescribed one, shear strains and lateral stresses vanish. For a linear isotropic material this is Hooke's law with Young's modulus and Poisson's ratio.", "quantifier": "every function and initial guess, every material with any state, every number of steps and strain history", "why_tests_cant": "quantifies over all functions, materials and histories; the drivers are themselves the tests of other materials", "anchors": ["src/serac/numerics/functional/tuple_tensor_dual_functions.hpp: find_root", "src/serac/physics/materials/material_verification_tools.hpp: uniaxial_stress_test, single_quadrature_point_test"]}
{"id": "C67", "title": "Prescribed displacements take the user's values at exactly the chosen nodes", "statement": "setDisplacementBCs with a predicate, a component, a list of degrees of freedom or boundary attributes constrains exactly the degrees of freedom of the chosen nodes and components, each once and on the rank that owns it. Applying the conditions gives each of them the value of the user's function at its own position at the requested time and leaves every other value alone; where conditions overlap the later one holds.", "quantifier": "every predicate, function, component, time, dof list, number of nodes and ranks, both orderings of vector dofs, every numbering that mfem may choose", "why_tests_cant": "quantifies over all meshes, partitions and user functions; tests use a few meshes on one or two ranks and only see the solution", "anchors": ["src/serac/physics/solid_mechanics.hpp: calculateConstrainedDofs, setDisplacementBCs, setDisplacementBCsByDofList", "src/serac/physics/boundary_conditions/boundary_condition.cpp: setTrueDofList, setDofs", "src/serac/physics/state/finite_element_state.cpp: project"]}
{"id": "C68", "title": "Parameter fields take effect and the warm start uses the previously solved Jacobian", "statement": "setParameter accepts exactly the fields of the right mesh, space and size; from then on every step evaluates its residual with the last value set, whatever was called before. The warm start of a quasi-static step extrapolates with the Jacobian of the step before, as documented, so that for a linear problem whose parameters did not change between two steps it already gives the solution.", "quantifier": "every sequence of setParameter, advanceTimestep and resetStates calls, every number of parameters, every linear problem with any constrained dofs", "why_tests_cant": "quantifies over call histories; tests change parameters at most once and the nonlinear solver hides a bad initial guess", "anchors": ["src/serac/physics/base_physics.cpp: setParameter, initializeBasePhysicsStates", "src/serac/physics/base_physics.hpp: ParameterInfo", "src/serac/physics/solid_mechanics.hpp: advanceTimestep, warmStartDisplacement"]}
{"id": "C69", "title": "fit returns the best approximation of the user's function", "statement": "fit returns the field of the output space with the least weighted squared difference to the user's function; the answer is unique, functions of the space are reproduced, integrals are kept, and the result is linear in the function and acts component by component. What the tolerance of the linear solver leaves is bounded.", "quantifier": "every mesh and output space (any basis values at the quadrature points), every function and auxiliary fields, any number of components", "why_tests_cant": "quantifies over all fields and functions; the test only runs the code", "anchors": ["src/serac/physics/fit.hpp: fit", "src/serac/numerics/functional/functional.hpp: Q"]}
{"id": "C70", "title": "The command line and the mesh options of the input file select the run the user asked for", "statement": "The driver starts exactly the run the arguments and the input file ask for: output goes to the given directory or the one named after the input file; a restart starts from the given cycle and its stored time without reading the mesh options; otherwise the run starts at time zero on the mesh the input file describes, with boxes of the given element counts and sizes after all refinements. Help, version, documentation and unused-entry requests are answered instead of running.", "quantifier": "every combination of arguments, every input file and file system, every number of refinements", "why_tests_cant": "tests run a few fixed command lines and input files", "anchors": ["src/serac/infrastructure/cli.cpp: defineAndParse, printGiven", "src/serac/infrastructure/input.cpp: findMeshFilePath, getInputFileName", "src/serac/mesh/mesh_utils.cpp: InputOptions::defineInputFileSchema, buildParallelMesh, refineAndDistribute, FromInlet", "src/drivers/serac.cpp: main"]}
{"id": "C71", "title": "Internal forces of the solid are in equilibrium, turn with the body and vanish for rigid motions and inside uniformly deformed bodies", "statement": "The assembled domain residual of SolidMechanics tested with any nodal field is the work of inertia and stress on it. Its nodal forces sum to the rate of momentum and, for symmetric stresses, their moments about the current nodes (reference nodes if geometric nonlinearity is off) to the rate of angular momentum; without inertia to zero. With frame indifferent materials rotating and translating the deformed body rotates the forces, and rigid motions of a stress-free body produce none. For neo-Hookean and Saint Venant-Kirchhoff materials the forces are the derivatives of the total stored energy. Under a uniform displacement gradient and one material, linear triangles, linear tetrahedra and bilinear quadrilaterals of any shape have no force on inner nodes and on boundary nodes exactly the consistent traction forces.", "quantifier": "every mesh, order, quadrature rule, displacement, acceleration and material with the stated symmetry; elements with nonsingular Jacobians", "why_tests_cant": "tests compare a few displacement fields on fixed meshes within tolerances", "anchors": ["src/serac/physics/solid_mechanics.hpp: MaterialStressFunctor, setMaterial", "src/serac/numerics/functional/domain_integral_kernels.hpp: evaluation_kernel_impl", "src/serac/numerics/functional/geometric_factors.cpp: compute_geometric_factors", "src/serac/numerics/functional/finite_element.hpp: parent_to_physical, physical_to_parent", "src/serac/numerics/functional/element_restriction.cpp: Gather, ScatterAdd"]}
{"id": "C72", "title": "Heat is balanced and dissipated by every step of HeatTransfer, and linear temperatures are exact", "statement": "The assembled residual of HeatTransfer tested with any nodal field v is the integral of capacity times rate times v minus flux dotted with the gradient of v, minus the integral of the sources times v. Consequently the heat content changes by exactly what the sources supply, over any number of backward Euler steps of any positive sizes; uniform temperatures are at rest; with a dissipating conductor, no sources and walls at zero the integral of capacity times squared temperature never grows; linear symmetric conductors are reciprocal; each step with a dissipating linear conductor and definite mass has exactly one solution. A temperature linear in position with a uniform flux gives no residual at inner nodes and exactly the boundary fluxes at the others, for linear triangles, linear tetrahedra and bilinear quadrilaterals of any shape.", "quantifier": "every mesh, order, quadrature rule, temperature, rate, source and sequence of steps; elements with nonsingular Jacobians; conductors of the library or any with the stated property", "why_tests_cant": "tests compare a few temperature fields on fixed meshes within tolerances and cannot cover all step sequences", "anchors": ["src/serac/physics/heat_transfer.hpp: ThermalMaterialIntegrand, setSource, residual_with_bcs_", "src/serac/numerics/odes.cpp: FirstOrderODE::Solve", "src/serac/numerics/functional/domain_integral_kernels.hpp: evaluation_kernel_impl", "src/serac/physics/materials/thermal_material.hpp"]}
{"id": "C73", "title": "Momentum and energy of a dynamic SolidMechanics run", "statement": "The assembled residual of SolidMechanics with body forces, tested with any vector v of true dofs, is the integral of density times acceleration dotted with v plus stress times the gradient of v minus the body forces dotted with v over their domains. Consequently, over any number of Newmark steps of any positive lengths, the momentum of a body without fixed dofs changes by exactly the impulse of its body forces whatever the material; without forces it never changes and the centre of mass moves uniformly. For a linear elastic material with resting supports and constant forces the default average acceleration method keeps the sum of kinetic, elastic and potential energy exactly for any sequence of step lengths, other members with gamma = 1/2 keep a modified energy for equal steps (which bounds the energy for beta >= 1/4), and backward Euler loses exactly the energy of the increments. Every stage has a solution if mass is definite and the material stores energy, as the linear isotropic material does for non-negative moduli.", "quantifier": "every mesh, order, quadrature rule, material, body force and sequence of steps; elements with nonsingular Jacobians; fixed dofs under direct control", "why_tests_cant": "tests integrate a few steps and compare with tolerances; exact conservation over arbitrary step sequences is out of reach of tests", "anchors": ["src/serac/physics/solid_mechanics.hpp: addBodyForce, residual_with_bcs_, MaterialStressFunctor", "src/serac/numerics/odes.cpp: SecondOrderODE::Step, SecondOrderODE::Solve, SecondOrderODE::ImplicitSolve", "src/serac/numerics/functional/domain_integral_kernels.hpp: evaluation_kernel_impl", "src/serac/physics/materials/solid_material.hpp: LinearIsotropic"]}
{"id": "C74", "title": "States and duals are values, their local views agree with them, and reductions do not depend on the partition", "statement": "A program that constructs, copies, moves, assigns, edits and destroys FiniteElementState and FiniteElementDual objects behaves as if each variable held a name and a vector of its own: after x = y, x reads as y and later changes of y do not show in x; fields of different spaces are refused; nothing dangles. The grid function of a state and the linear form of a dual show the values of the field (with the sign of the orientation; the owner's copy carries a dual's entry), writing them back unchanged changes nothing, and a dual applied to a state gives the same number through true dofs, local dofs or after assembling. avg, max, min and innerProduct return the mean, largest, smallest entry and the sum of products over all true dofs, however these are distributed over MPI ranks, ranks without dofs included. Projecting a coefficient onto a domain sets exactly the dofs of the domain.", "quantifier": "every program over states and duals, every conforming space, every partition over ranks, all values", "why_tests_cant": "tests copy a few objects on one or two ranks; programs, aliasing and partitions are unbounded", "anchors": ["src/serac/physics/state/finite_element_vector.cpp: FiniteElementVector::operator=, avg, max, min, innerProduct, sameFiniteElementSpace", "src/serac/physics/state/finite_element_state.cpp: FiniteElementState::project, gridFunction", "src/serac/physics/state/finite_element_state.hpp: FiniteElementState", "src/serac/physics/state/finite_element_dual.hpp: FiniteElementDual::operator=, linearForm, setFromLinearForm"]}
{"id": "C75", "title": "Tractions, pressures and heat fluxes on the boundary act as loads of the whole body, over whole runs", "statement": "In the assembled residual a traction does its virtual work per area of the undeformed boundary, a pressure pushes against the normal of the current boundary (the undeformed one with geometric nonlinearities off) and a heat flux takes heat out. So the residual adds up to inertia minus body forces minus the resultant of the loads, likewise for moments; reactions of a solved static problem balance the applied loads; a uniform pressure on a closed boundary has no resultant, no moment and the potential minus pressure times enclosed volume; tractions and dead pressures have a potential; momentum of a free body changes by the impulse of the loads and energy of a clamped elastic body with constant dead loads is kept by average acceleration over any run; the heat content changes by what sources supply minus what leaves; with cooling fluxes and cold walls the square of the temperature never grows. The steps these claims speak about can be solved.", "quantifier": "every mesh, element with shape functions that add up to one, list of loads with their domains, field, time, sequence of steps", "why_tests_cant": "tests check one load on one mesh against a closed form; balance and energy are claims about all meshes, loads and step sequences", "anchors": ["src/serac/physics/solid_mechanics.hpp: SolidMechanics::setTraction, SolidMechanics::setPressure", "src/serac/physics/heat_transfer.hpp: HeatTransfer::setFluxBCs", "src/serac/numerics/functional/boundary_integral_kernels.hpp: evaluation_kernel_impl", "src/serac/numerics/functional/geometric_factors.cpp: compute_geometric_factors", "src/serac/numerics/functional/functional.hpp: Functional::operator()"]}
{"id": "C76", "title": "PETSc's solvers get a step that can be evaluated and the matrix that was set", "statement": "Before a Newton step is tried, linesearchPreCheckBackoffOnNan halves it until all entries of the residual are numbers, at most as often as failures are allowed and not below the smallest step length; all MPI ranks decide alike; a step that works is not changed and the flag says whether it was. A PETSc preconditioner is built from a matrix in AIJ format with the values of the operator, at every solve of any program that sets, refills and solves; a preconditioner of another library is set up with the current hypre matrix. The options wrap_op and min_iterations have the effect they describe.", "quantifier": "every residual function, step, partition over ranks and number of failures; every program of assembling, setting operators and solving", "why_tests_cant": "tests run one solve per combination; caches go wrong over sequences of operators, and infinities appear for particular steps", "anchors": ["src/serac/numerics/petsc_solvers.cpp: linesearchPreCheckBackoffOnNan, convertPCPreSolve, convertKSPPreSolve, PetscKSPSolver::SetOperator, PetscKSPSolver::PetscKSPSolver, PetscNewtonSolver::PetscNewtonSolver", "src/serac/numerics/petsc_solvers.hpp: PetscPCSolver, PetscKSPSolver"]}
{"id": "C77", "title": "The Jacobian of a solid is the derivative of its residual, with all loads, and symmetric when there is an energy", "statement": "The matrix that SolidMechanics hands to its linear solver, element stiffness assembled over all domains with the loads included, is the Frechet derivative of the residual: for quasi-static problems the stiffness, for dynamics the mass plus c0 times the stiffness at the predicted displacement; fixed dofs have zero rows in the derivative and the eliminated matrix agrees with it on all increments that keep them. A pressure that follows the body contributes its own derivative. The matrix form and the matrix-free action agree. Without follower loads the stiffness of a hyperelastic material is symmetric.", "quantifier": "every mesh, element, quadrature rule, load list, material that is differentiable at the current state, displacement, time and set of fixed dofs", "why_tests_cant": "finite-difference tests check a few directions at one state on one mesh to a tolerance; an error in one load or in one term of the pull-back is below it", "anchors": ["src/serac/physics/solid_mechanics.hpp: setMaterial, setTraction, setPressure, buildQuasistaticOperator, completeSetup, MaterialStressFunctor", "src/serac/numerics/functional/domain_integral_kernels.hpp: action_of_gradient_kernel, element_gradient_kernel", "src/serac/numerics/functional/boundary_integral_kernels.hpp: action_of_gradient_kernel, element_gradient_kernel", "src/serac/numerics/functional/functional.hpp: Gradient::operator(), Gradient::assemble"]}
{"id": "C78", "title": "Linear elastostatics: one equilibrium, found by a step whatever the history", "statement": "For a linear elastic body under body forces, tractions and pressures with geometric nonlinearities off: the assembled stiffness is one symmetric matrix, the same at all displacements and times, and not negative; if the supports hold the mesh there is exactly one equilibrium for any loads and boundary values, it is the minimum of the potential energy, loads superpose and are reciprocal; advanceTimestep with exact linear solves returns it, by the warm start alone or by one Newton iteration, and after any sequence of steps the displacement depends on the final time only. Rigid motions are in the kernel of the stiffness, and a body without supports is in equilibrium only under loads that do no work on them.", "quantifier": "every mesh, element, load list, set of supports, boundary history, initial displacement, sequence of time steps and options of the Newton solver", "why_tests_cant": "tests compare a few meshes with analytic solutions at one load; dependence on history needs all sequences", "anchors": ["src/serac/physics/solid_mechanics.hpp: quasiStaticSolve, warmStartDisplacement, buildQuasistaticOperator, advanceTimestep", "src/serac/numerics/equation_solver.cpp: NewtonSolver::Mult", "src/serac/physics/materials/solid_material.hpp: LinearIsotropic"]}
{"id": "C79", "title": "A shape displacement moves the mesh", "statement": "The residual that SolidMechanics (with body forces, tractions and pressures) and HeatTransfer (with sources and fluxes) assemble for a shape displacement p on a mesh is the residual without shape displacement on the mesh with its nodes moved by p, for all fields and times; the functions of the user are called at displaced positions. Hence a step with shape displacement solves the equations of the displaced body, shape displacements add up, and the derivative with respect to the shape displacement is the derivative with respect to the positions of the nodes.", "quantifier": "every mesh that is not degenerate, element, shape displacement, material, load, source, flux, field and time", "why_tests_cant": "tests compare a few shape displacements on one mesh, mostly pure stretches", "anchors": ["src/serac/numerics/functional/shape_aware_functional.hpp: ShapeCorrection, ShapeAwareIntegrandWrapper, ShapeAwareBoundaryIntegrandWrapper, compute_boundary_area_correction", "src/serac/physics/solid_mechanics.hpp: MaterialStressFunctor, addBodyForce, setTraction, setPressure", "src/serac/physics/heat_transfer.hpp: ThermalMaterialIntegrand, setSource, setFluxBCs"]}
{"id": "C80", "title": "The number of processors does not matter", "statement": "For functionals on H1 and L2 spaces, residuals, actions and assembled matrices of gradients, quantities of interest and inner products are the same, dof by dof, for every distribution of a mesh over processors: any number of processors, any assignment of elements (some processors may have none), any ownership of shared dofs and any numbering. The same holds for sequences of evaluations that update material states, and Newton's method with exact linear solves makes the same iterations with the same report.", "quantifier": "every mesh, set of integrals, pair of distributions and numberings, sequence of evaluations, starting point and solver options", "why_tests_cant": "tests run a few fixed partitions and compare norms; they cannot try all assignments, ownerships and numberings", "anchors": ["src/serac/numerics/functional/functional.hpp: operator(), ActionOfGradient, Gradient::assemble, AddDomainIntegral, AddBoundaryIntegral", "src/serac/numerics/functional/functional_qoi.inl: operator()", "src/serac/numerics/equation_solver.cpp: NewtonSolver::Mult"]}
{"id": "C81", "title": "Heat transfer hands the nonlinear solver the derivative of its residual, and Newton's method solves its steps", "statement": "The Jacobians that HeatTransfer assembles (quasi-static and transient, with boundary conditions eliminated) are the derivatives of its residuals wherever material, sources and boundary fluxes are differentiable; they are symmetric for fluxes that depend on the gradient by a symmetric matrix. For linear problems (conduction linear in the gradient, given sources, boundary flux affine in the temperature) the matrix of a time step is positive definite and the Newton solver with exact linear solves finds the rate in every step; there is one steady temperature if every node is connected to a prescribed one or to a cooled face, and a sequence of quasi-static steps ends at the one of its final time, whatever the initial temperature and the steps in between.", "quantifier": "every mesh, element, dimension, material, list of sources and boundary fluxes, temperature, set of boundary conditions, sequence of steps, solver options that make Newton iterate", "why_tests_cant": "tests compare a few finite differences and a few manufactured solutions; they cannot establish the derivative at every state nor convergence from every start", "anchors": ["src/serac/physics/heat_transfer.hpp: completeSetup, advanceTimestep, setMaterial, setSource, setFluxBCs", "src/serac/numerics/functional/functional.hpp: Gradient::assemble", "src/serac/numerics/equation_solver.cpp: NewtonSolver::Mult"]}
{"id": "C82", "title": "Every stage of a linear elastic run is solved by the module's own Newton solver", "statement": "For a linear elastic body with mass under dead loads, the Jacobian M + c0 K that a transient SolidMechanics hands to the nonlinear solver is symmetric and positive definite, every stage has exactly one acceleration with the prescribed values, and the Newton solver with exact linear solves finds it from any guess. A run therefore conserves energy (average acceleration, constant loads, resting supports) and changes momentum by the impulse of the loads, with nothing assumed of the nonlinear solver, and its states do not depend on line search, tolerances, norm or which exact linear solver is used.", "quantifier": "every mesh, element, dimension, linear elastic material, set of loads and boundary conditions, sequence of steps, Newmark parameters, solver options that make Newton iterate", "why_tests_cant": "tests run a few steps of a few problems with one solver configuration; they cannot show solvability of every stage nor independence of the options", "anchors": ["src/serac/physics/solid_mechanics.hpp: completeSetup (dynamic case), advanceTimestep", "src/serac/numerics/odes.cpp: SecondOrderODE::Solve, SecondOrderODE::Step", "src/serac/numerics/equation_solver.cpp: NewtonSolver::Mult"]}
{"id": "C83", "title": "Newton solves and load steps follow a branch of regular solutions of a nonlinear problem", "statement": "Near solutions at which the Jacobian with eliminated boundary conditions is invertible, the library's Newton solver always keeps its full step, shrinks error and residual by any factor wanted (quadratically for Lipschitz Jacobians), reports convergence within the expected number of iterations, and the distance to the solution is bounded by the norm it reports. Small enough load steps with small enough tolerances follow the branch of solutions to its end with any accuracy and every solve converged, with or without the linearised warm start. Every regular solution lies on such a branch, whose solutions are the only ones near it.", "quantifier": "every nonlinear residual with continuous Jacobian, boundary values, set of eliminated dofs, line search setting, sequence of steps below the threshold; every exact linear solver and every norm comparable to the largest entry", "why_tests_cant": "tests see one load path with one step size; local convergence and continuation are statements about all starts in a neighbourhood and all partitions of the load path", "anchors": ["src/serac/numerics/equation_solver.cpp: NewtonSolver::Mult", "src/serac/physics/solid_mechanics.hpp: quasiStaticSolve, warmStartDisplacement"]}
{"id": "C84", "title": "Nonlinear solids loaded from rest follow a path of equilibria", "statement": "A supported neo-Hookean or Saint Venant-Kirchhoff body, with geometric nonlinearities and pressures that follow it, whose loads and boundary values grow continuously from zero has for some time a path of equilibria with invertible stiffness starting at rest, and small enough quasi-static steps from rest follow it with any accuracy, every solve reporting convergence. More generally steps follow any path of equilibria along which the assembled stiffness with eliminated dofs stays invertible, and each such equilibrium lies on a path with no others near it. In dynamics the Newton solve of a stage converges to the acceleration near it and reports a norm that bounds the error, and if every motion has inertia then short enough time steps have invertible Jacobians for all displacements in a compact set, stable or not.", "quantifier": "every mesh and element of nonzero volume, material parameters, boundary conditions, body forces, tractions and pressures continuous in time, previous contents of buffers, with or without warm start; every exact linear solver and norm comparable to the largest entry", "why_tests_cant": "tests load a few bodies with chosen step sizes; that some step size works for every body and that halving it never leads onto another branch concerns all bodies and all sequences of steps", "anchors": ["src/serac/physics/solid_mechanics.hpp: quasiStaticSolve, advanceTimestep, completeSetup", "src/serac/physics/materials/solid_material.hpp", "src/serac/numerics/equation_solver.cpp: NewtonSolver::Mult"]}
{"id": "C85", "title": "The adjoint pass of a quasi-static solid returns the gradient with respect to a parameter field", "statement": "For a quasi-static analysis of a body whose material depends on a parameter field, the sensitivities returned by the adjoint pass add up to the gradient of any differentiable objective of the displacements of all steps, through the nonlinear solves, with respect to all nodal values of the field; likewise for the reactions of the last step. The matrix assembled for the parameter is the weak form of the derivative of the stress, and with the stiffness it is the derivative of the residual in displacement and parameter together. An equilibrium of a smooth material with invertible stiffness lies on a branch of equilibria differentiable in the parameter with no others near it. For the parameterized linear isotropic material on held bodies with positive moduli the analysis with the code's own solver needs no further hypotheses.", "quantifier": "every mesh and pair of elements, displacement, parameter field, loads, boundary conditions, numbers and sizes of steps, objective, previous contents of buffers; every exact linear solver; materials continuously differentiable in gradient and parameter, as both parameterized materials are", "why_tests_cant": "tests compare a sensitivity with a finite difference in one direction at one parameter with a tolerance; the gradient concerns all directions and its existence depends on the solutions of the nonlinear equations", "anchors": ["src/serac/physics/solid_mechanics.hpp: computeTimestepSensitivity, reverseAdjointTimestep, setMaterial", "src/serac/physics/materials/parameterized_solid_material.hpp", "src/serac/numerics/functional/functional.hpp: Gradient::assemble", "src/serac/numerics/functional/domain_integral_kernels.hpp: action_of_gradient_kernel, element_gradient_kernel"]}
{"id": "C86", "title": "The summary of a run records every step", "statement": "After initializeSummary and any number of calls of saveSummary the root processor holds, for each state of the module, curves of the L1, L2 and maximum norms, averages, minima and maxima and a curve of times, all with one entry per call; entry k of every curve belongs to call k. A run of the driver leaves one entry per step; the times increase strictly, start one step after the initial time and end at the final time up to the driver's tolerance, and the values with a time are those of the module after exactly these steps. In each entry the minimum is at most the average and the average at most the maximum, and averages, minima and maxima do not depend on the number of processors. A second initialisation and a save without one are refused.", "quantifier": "every list of states with distinct names, number of saves, values, number of processors and distribution, step sizes, final times, physics module", "why_tests_cant": "tests run a few steps of one module on one or two processors and look whether a file exists", "anchors": ["src/serac/physics/base_physics.cpp: initializeSummary, saveSummary", "src/serac/physics/state/finite_element_vector.cpp: avg, max, min", "src/drivers/serac.cpp: main"]}
{"id": "C87", "title": "Adjoint passes of heat transfer return gradients with respect to parameter fields and initial temperatures", "statement": "A transient analysis by backward Euler, followed by an adjoint pass over its checkpoints with the assembled matrices, returns the gradient of any differentiable objective of the temperatures and rates of all steps: the sum of the sensitivities of computeTimestepSensitivity is the gradient with respect to the nodal values of a parameter field of the conductor, and computeInitialConditionSensitivity returns the gradient with respect to the initial temperature at the nodes that are not fixed, when the caller sets both loads, or a load of the temperature only, in every step. The same holds for quasi-static analyses. The assembled parameter matrix is the weak form of the derivatives of capacity and heat flux, and the exact derivative of the residual. Linear conductors with sources, cooled boundaries and prescribed temperatures qualify with the code's own solver.", "quantifier": "every mesh with positive volumes and faces of positive area, element, number and size of steps, parameter field, initial temperature, objective differentiable in temperatures and rates, differentiable conductor, sources, fluxes, boundary values, contents of reused buffers", "why_tests_cant": "tests compare a few sensitivities with difference quotients for one mesh, material and objective, to a tolerance", "anchors": ["src/serac/physics/heat_transfer.hpp: advanceTimestep, setAdjointLoad, reverseAdjointTimestep, computeTimestepSensitivity, computeInitialConditionSensitivity", "src/serac/physics/materials/parameterized_thermal_material.hpp", "src/serac/physics/base_physics.cpp: getCheckpointedStates"]}
{"id": "C88", "title": "Shape sensitivities are gradients with respect to the positions of the nodes", "statement": "The sensitivities that computeTimestepShapeSensitivity returns in an adjoint pass over a quasi-static or transient analysis sum to the gradient, with respect to the shape displacement, of any differentiable objective of the states of all steps; and the derivative with respect to the shape displacement is the derivative with respect to the positions of the nodes of a mesh that is displaced beforehand. The matrices that the shape-aware functional assembles for the field, its rate and the shape displacement are together the exact derivative of its residual, in elements and on faces, for any integrands. For solids with body forces, tractions and pressures and for heat transfer with sources and boundary fluxes it is enough that the derivatives of the functions of the user are right; the matrix for the displacement is the stiffness of the displaced solid. Linear elastic solids with held nodes, and linear conductors with cooled boundaries, qualify with the code's own solver.", "quantifier": "every mesh that is regular before and after the displacement, element, shape displacement, number and size of steps, objective, differentiable material, source and load, boundary values, contents of reused buffers", "why_tests_cant": "tests compare a few shape sensitivities with difference quotients in one direction for one mesh and load, to a tolerance", "anchors": ["src/serac/numerics/functional/shape_aware_functional.hpp", "src/serac/physics/solid_mechanics.hpp: computeTimestepShapeSensitivity", "src/serac/physics/heat_transfer.hpp: computeTimestepShapeSensitivity", "src/serac/numerics/functional/functional.hpp: Gradient"]}
{"id": "C89", "title": "Coupled thermomechanics is a thermal analysis followed by a mechanical one, and thermal stresses are in equilibrium", "statement": "With the thermoelastic materials of the library the deformation has no influence on the assembled thermal residual, so any run of Thermomechanics gives the temperatures of a thermal analysis of the rigid body and the displacements of a mechanical analysis that is given these temperatures, step by step; the heat in the body changes by what sources supply and what leaves through the boundary. The assembled thermal forces are in balance, with their moments if geometric nonlinearity is on, they are the derivatives of the free energy of the body, they do not depend on the history, and the stored variable is the trace of the strain. A free body heated evenly is in equilibrium when it has grown by the factor whose square is one plus twice the thermal strain, however it is turned; a body kept from moving presses on its boundary with three times bulk modulus times thermal strain; at the reference temperature the module is the isothermal one.", "quantifier": "every mesh with regular elements, material with valid moduli, field of temperatures, expansion factor per point, displacement with regular deformation gradient, solver, number and size of steps", "why_tests_cant": "tests run a few steps of one or two coupled problems and compare norms of the solution with recorded values", "anchors": ["src/serac/physics/thermomechanics.hpp", "src/serac/physics/materials/green_saint_venant_thermoelastic.hpp", "src/serac/physics/heat_transfer.hpp: setMaterial", "src/serac/physics/solid_mechanics.hpp: setMaterial"]}
{"id": "C90", "title": "Plastic bodies dissipate: the energy balance of quasi-static analyses with J2 plasticity", "statement": "In a quasi-static analysis with J2SmallStrain and geometric nonlinearity off, the work of body forces, boundary loads and reactions on the displacement increments of a run equals the change of the stored energy (elastic and kinematic hardening) plus the heat of plastic flow (equivalent stress times growth of the accumulated plastic strain) plus the loss of the implicit steps; the last two are never negative, so a body without stored energy never returns more work than it was given, whatever the loading programme. Plastic strains stay symmetric and traceless and the accumulated plastic strain never decreases at any point, whether the solver converges or not; internal forces and their moments add up to zero; below yield the step leaves the internal variables alone; with linear hardening what is stored after a step reproduces the forces and itself; a body strained uniformly follows at every point the history of one material point and needs forces on its boundary only.", "quantifier": "every mesh with regular elements, J2 material with non-negative non-decreasing flow stress, loads, boundary conditions, solver, history, number and size of steps", "why_tests_cant": "tests follow one strain path at a point or compare one displacement of a small mesh; the balance over arbitrary cyclic programmes and meshes needs the assembled residual, the stored state and the return map together", "anchors": ["src/serac/physics/solid_mechanics.hpp: setMaterial, advanceTimestep", "src/serac/physics/materials/solid_material.hpp: J2SmallStrain", "src/serac/numerics/functional/domain_integral_kernels.hpp", "src/serac/numerics/functional/quadrature_data.hpp"]}
{"id": "C91", "title": "Every first-order time integrator keeps boundary values, heat and order", "statement": "With DirectControl the constrained dofs have the prescribed values at the end of every step of every supported implicit integrator; with RateControl the prescribed rates are integrated with the quadrature of the method, so second-order methods keep quadratic histories exact; values growing at a constant rate are exact for all implicit methods. For all Runge-Kutta methods FirstOrderODE offers, the heat in a body changes by the weighted sum over the stages of supply minus outflow plus what fixed nodes exchange, so that polynomial heating below the order of the method is accounted for exactly over any run. With linear conduction and cooling, backward Euler, implicit midpoint, SDIRK23 and SDIRK34 never increase the heat-capacity norm of the difference of two solutions; the temperatures do not depend on solver or carried state; steady states stay.", "quantifier": "every problem, boundary values and solver; all meshes, materials, sources, step sizes, numbers of steps and states; all nine Runge-Kutta methods of SetTimestepper", "why_tests_cant": "tests compare errors of one manufactured problem at a few step sizes with one method; whether the end value is the prescribed one, exact accounting and contraction concern all methods, runs and data", "anchors": ["src/serac/numerics/odes.cpp: FirstOrderODE::SetTimestepper, Solve", "src/serac/numerics/odes.hpp: FirstOrderODE::Step, Mult, ImplicitSolve", "src/serac/physics/heat_transfer.hpp: completeSetup, advanceTimestep", "src/serac/numerics/solver_config.hpp: TimestepMethod, DirichletEnforcementMethod"]}
{"id": "C92", "title": "Adjoint passes of dynamic analyses return gradients", "statement": "For a transient SolidMechanics analysis with Newmark's method whose first step has size zero (as the repository's tests do), a forward run followed by one setAdjointLoad / reverseAdjointTimestep / computeTimestepSensitivity per step returns the gradient of every differentiable objective of the displacements and accelerations of all steps: the summed sensitivities are the gradient with respect to the nodal values of a material parameter, and computeInitialConditionSensitivity returns the gradients with respect to initial displacement and initial velocity at the free dofs. With the module's assembled matrices this holds for every differentiable material; for linear materials and bodies with mass the code's own solver provides such runs at all data, and the integrator's carried state does not matter.", "quantifier": "all meshes, materials, parameter fields, loads, boundary values, initial conditions, objectives, numbers and sizes of steps after the first", "why_tests_cant": "tests compare one directional finite difference for one objective of one small run within a tolerance; equality with the derivative concerns all directions, objectives and runs", "anchors": ["src/serac/physics/solid_mechanics.hpp: advanceTimestep, setAdjointLoad, reverseAdjointTimestep, computeTimestepSensitivity, computeInitialConditionSensitivity", "src/serac/physics/solid_mechanics.cpp: adjoint_integrate", "src/serac/physics/base_physics.cpp: getCheckpointedTimestep, getCheckpointedStates", "src/serac/numerics/odes.cpp: SecondOrderODE::Solve, Step"]}
{"id": "C93", "title": "Every second-order time integrator keeps boundary values, momentum and energy", "statement": "Whatever TimestepMethod a transient SolidMechanics analysis selects, displacement and velocity after a step obey the method's update relations with an acceleration that balances the forces, and under DirectControl the constrained displacements have their prescribed values at the end of each step. HHTAlpha and WBZAlpha, as SetTimestepper constructs them, produce exactly the runs of Newmark. With AverageAcceleration the momentum of a free body changes by the impulse of its forces, an elastic body with resting supports and constant dead loads keeps its energy, and a free body without loads keeps its angular momentum, for every material with symmetric stresses and any size of deformations.", "quantifier": "all parameters of generalized-alpha methods, meshes, materials, loads, initial conditions, histories of boundary values, numbers and sizes of steps", "why_tests_cant": "tests observe convergence rates of a few methods on one problem with smooth data; conservation laws and agreement with prescribed values concern every step of every run, and growth of errors shows only in long runs", "anchors": ["src/serac/numerics/odes.cpp: SecondOrderODE::SetTimestepper, Step, Solve", "src/serac/numerics/odes.hpp: SecondOrderODE::Mult, ImplicitSolve", "src/serac/numerics/solver_config.hpp: TimestepMethod, DirichletEnforcementMethod"]}
{"id": "C94", "title": "Element-wise design variables act on their own elements, and the compliance gradient is minus the energy density", "statement": "A parameter field of type L2<0> (one value per element, any of the five element shapes) is handed to the material as exactly the element's value at all of its quadrature points, and changing it changes the residual at nodes of that element only. For a clamped linear isotropic body, the adjoint pass of a quasi-static analysis with the load vectors as adjoint loads returns the gradient of the compliance; its component for an element is minus the energy density per unit of the design variable, integrated over the element, so no component is positive if the moduli grow with the design variable. A stiffer design has no larger compliance, and the compliance is convex in the design.", "quantifier": "all meshes, quadrature rules, supported linear isotropic bodies, dead loads and their histories, designs with positive moduli, numbers and sizes of steps", "why_tests_cant": "tests compare one directional derivative with a finite difference at one design; the sign of every component, the formula and convexity are statements about all designs", "anchors": ["src/serac/numerics/functional/detail/triangle_L2.inl: shape_function, shape_function_gradient", "src/serac/numerics/functional/detail/tetrahedron_L2.inl", "src/serac/numerics/functional/detail/segment_L2.inl", "src/serac/numerics/functional/detail/quadrilateral_L2.inl", "src/serac/numerics/functional/detail/hexahedron_L2.inl", "src/serac/numerics/functional/polynomials.hpp: GaussLobattoInterpolation", "src/serac/physics/solid_mechanics.hpp: reverseAdjointTimestep, computeTimestepSensitivity", "src/serac/physics/materials/parameterized_solid_material.hpp: ParameterizedLinearIsotropicSolid"]}
{"id": "C95", "title": "A contact step ends with separated surfaces and balanced forces", "statement": "After a converged quasi-static step of SolidMechanicsContact the contact surfaces overlap by at most the tolerance, pressures act only where surfaces touch, tied surfaces coincide on the second surface, the reported contact forces belong to the reported pressures and displacement, and they balance the forces of the body.", "quantifier": "all bodies, contact geometries, numbers and kinds of interactions, loads, solvers (any sequence of residual evaluations) and tolerances", "why_tests_cant": "tests compare the final displacement of a few examples with analytical solutions of increasing compression; contact that opens during a step, mixed interactions and uninitialised memory show only for particular load histories and runs", "anchors": ["src/serac/physics/contact/contact_data.cpp: residualFunction, jacobianFunction, update, forces, setPressures, setDisplacements", "src/serac/physics/contact/contact_interaction.cpp: ContactInteraction, inactiveDofs, forces", "src/serac/physics/solid_mechanics_contact.hpp: buildQuasistaticOperator, quasiStaticSolve"]}
{"id": "C96", "title": "Gradients of analyses with contact", "statement": "The adjoint pass of a SolidMechanicsContact analysis returns the derivatives, through all steps and their contact, of objectives of the displacements with respect to parameter fields.", "quantifier": "all bodies, contact conditions and enforcements, numbers of steps, parameters and differentiable objectives", "why_tests_cant": "no test computes a gradient of a contact analysis; a gradient that ignores contact has the right size and sign in many examples and is noticed only as slow or failing optimisation", "anchors": ["src/serac/physics/solid_mechanics_contact.hpp: SolidMechanicsContact (inherits the adjoint routines)", "src/serac/physics/solid_mechanics.hpp: setAdjointLoad, reverseAdjointTimestep, computeTimestepSensitivity"]}
{"id": "C97", "title": "Integrals are computed over the mesh the user gave", "statement": "At every quadrature point of every element and boundary face, integrals use the position and the Jacobian that the nodes of the mesh give, for every element geometry and mesh order; a mesh handed to the StateManager keeps its shape, and a combination that is not supported is reported.", "quantifier": "all meshes, geometries, mesh orders, rules, domains, node positions and contents of memory", "why_tests_cant": "tests use straight-sided meshes or squares and cubes; with simplices of higher order the results depend on uninitialised memory, and straightened elements give plausible results that converge to the wrong limit", "anchors": ["src/serac/numerics/functional/geometric_factors.cpp: compute_geometric_factors, GeometricFactors::GeometricFactors", "src/serac/physics/state/state_manager.cpp: StateManager::setMesh, newDataCollection", "src/serac/numerics/functional/geometry.hpp: dimension_of, num_quadrature_points"]}
{"id": "C98", "title": "Contact steps minimise the energy of the bodies", "statement": "If the forces of the bodies derive from a convex energy, the state after a converged step with contact has the least energy among all displacements with the same supports that overlap nowhere more than it does; for linear bodies Newton's iteration arrives there once the active set is right, and every linear system on the way has exactly one solution.", "quantifier": "all bodies with convex energies, surfaces with concave gaps, multiplier and penalty interactions, pressures held before and starting points", "why_tests_cant": "tests compare one displacement norm of one pair of blocks; a state held by pressures that pull satisfies the same residual, and whether a solution is accepted depends on the history of the pressures", "anchors": ["src/serac/physics/contact/contact_data.cpp: ContactData::mergedPressures, residualFunction, mergedJacobian, setPressures", "src/serac/physics/contact/contact_interaction.cpp: ContactInteraction::inactiveDofs, pressure, gaps", "src/serac/physics/solid_mechanics_contact.hpp: SolidMechanicsContact::buildQuasistaticOperator"]}
{"id": "C99", "title": "Direct solvers solve the system of blocks they are given", "statement": "After SetOperator with a system of blocks, Mult of the direct solvers returns the only vector on which the blocks give the right hand side, whatever operators were set before; systems that are not square or not assembled are refused, and so is a solve without operator. An EquationSolver solves its last operator with its own linear solver and zero on the right hand side.", "quantifier": "all systems of blocks of any number and size, null blocks, right hand sides, sequences of operators and solves", "why_tests_cant": "tests solve one two-by-two block system with all blocks present; null blocks carry no sizes, so that the layout of the assembled matrix could be shifted without an error", "anchors": ["src/serac/numerics/equation_solver.cpp: buildMonolithicMatrix, SuperLUSolver::SetOperator, SuperLUSolver::Mult, StrumpackSolver::SetOperator, EquationSolver::setOperator, EquationSolver::solve", "src/serac/numerics/equation_solver.hpp: SuperLUSolver, StrumpackSolver, EquationSolver", "src/serac/physics/solid_mechanics_contact.hpp: buildQuasistaticOperator"]}
{"id": "C100", "title": "Tangents with contact give back the memory they take", "statement": "Evaluating the tangent of a problem with contact, however often, leaves in memory only the matrices that the module holds, and destroying the module leaves none; no matrix is freed twice or used after it was freed.", "quantifier": "all numbers of evaluations, interactions with multipliers and penalties, blocks the contact library returns, and versions of mfem that do or do not delete replaced blocks", "why_tests_cant": "leaks do not change results; tests run a few iterations and do not look at memory, while long runs with many steps run out of it", "anchors": ["src/serac/physics/contact/contact_data.cpp: ContactData::mergedJacobian, jacobianFunction", "src/serac/physics/contact/contact_interaction.cpp: ContactInteraction::jacobian", "src/serac/physics/solid_mechanics_contact.hpp: buildQuasistaticOperator"]}
{"id": "C101", "title": "Generalized-alpha steps of heat transfer meet boundary values, balance heat and damp differences", "statement": "With the time integrator GeneralizedAlpha, fixed nodes have the prescribed temperatures at the end of every step under direct control, the heat of a body grows by what is supplied minus what leaves, differences between two solutions of the same linear problem stay bounded for steps of every length, steady states stay as they are, and a module whose states are reset repeats its run.", "quantifier": "all meshes, conductors, sources, boundary fluxes, prescribed histories, enforcement methods, numbers and lengths of steps, start times and nonlinear solvers that solve", "why_tests_cant": "tests measure the order of convergence on one scalar oscillator that starts at time zero with a new integrator; the memory of the integrator, late starts and resets are not looked at", "anchors": ["src/serac/numerics/odes.cpp: FirstOrderODE::SetTimestepper, Solve", "src/serac/numerics/odes.hpp: FirstOrderODE::Step, Mult, ImplicitSolve", "src/serac/physics/heat_transfer.hpp: resetStates, initializeThermalStates, advanceTimestep"]}
{"id": "C102", "title": "Dofs chosen by element attribute do not depend on the distribution of the mesh", "statement": "GetEssentialTrueDofsFromElementAttribute returns on every processor exactly those of its true dofs that lie on an element with a marked attribute on any processor, for the chosen component; the dofs tied by a tied contact interaction and the local dofs of a boundary condition likewise depend on the mesh only and not on how it is distributed among processors.", "quantifier": "all meshes, distributions among any number of processors, numberings and orderings of dofs, signs of dofs, attributes and components", "why_tests_cant": "tests compare lists of dofs on one mesh and one or two processor counts; a dof that is owned by a processor without an element of the surface occurs only for particular distributions", "anchors": ["src/serac/physics/boundary_conditions/boundary_condition_helper.cpp: GetEssentialTrueDofsFromElementAttribute, mark_dofs, GetEssentialVDofsFromElementAttribute", "src/serac/physics/contact/contact_interaction.cpp: ContactInteraction::ContactInteraction", "src/serac/physics/boundary_conditions/boundary_condition.cpp: setTrueDofList"]}
{"id": "C103", "title": "The tangent of finite deformation plasticity is the derivative of its stress", "statement": "Called with dual numbers, as assembly of the stiffness matrix does, the finite deformation J2 material returns the stress and state of the plain evaluation, and the derivative parts are the derivative of that stress along the given change of the displacement gradient, through the matrix logarithm, the implicit plastic increment and the matrix exponential; for elastic and for plastic steps.", "quantifier": "all materials with non-decreasing flow stress, admissible internal states, non-singular deformations and differentiable paths through them", "why_tests_cant": "tests compare with difference quotients in a few directions at a few states, to a tolerance that hides a wrong factor in a narrow band; a wrong tangent spoils only the convergence of the global Newton iteration", "anchors": ["src/serac/physics/materials/solid_material.hpp: J2::operator()", "src/serac/numerics/functional/tuple_tensor_dual_functions.hpp: solve_scalar_equation, log_symm, exp_symm, inv"]}
{"id": "C104", "title": "Element matrices are derivatives of the user's function, whatever it is", "statement": "For every function of trial values and gradients that a user writes with the arithmetic and elementary functions of the library, a domain integral computes source and flux of exactly that function (transformed to the parent element), the same with and without differentiation; the array it stores at a quadrature point has at each position the partial derivative with respect to that component of the chosen argument's value or gradient; the blocks its types leave out are derivatives that vanish identically; and the element matrix assembled from them is the derivative of the element residual with respect to that argument; likewise for quantities of interest and for boundary integrals, where gradients are with respect to the parent face and the weight is the face area.", "quantifier": "all expressions, numbers of arguments and components, choices of the differentiated argument, invertible Jacobians, elements, rules, states and directions at which the function is differentiable", "why_tests_cant": "tests differentiate a handful of functions and compare with difference quotients; a wrong place in the stored tuple or a block wrongly typed as zero shows only for functions with that particular dependence", "anchors": ["src/serac/numerics/functional/domain_integral_kernels.hpp: evaluation_kernel_impl, get_derivative_type, batch_apply_qf", "src/serac/numerics/functional/boundary_integral_kernels.hpp: batch_apply_qf, evaluation_kernel_impl", "src/serac/numerics/functional/tuple_tensor_dual_functions.hpp: make_dual, promote_each_to_dual_when, get_value, get_gradient", "src/serac/numerics/functional/finite_element.hpp: parent_to_physical, physical_to_parent"]}
{"id": "C105", "title": "A Functional of user-written integrals returns their sum, and its gradient is the derivative of what it returns", "statement": "Let a Functional consist of domain and boundary integrals with functions the user writes with the library's arithmetic, none naming the same argument twice. An entry of an integral's element vector is the weighted sum over the element's quadrature points of the user's source times the shape function plus the user's flux times its gradient, transformed with the Jacobian. Whatever is differentiated, values and material states are the same. After an evaluation that differentiates with respect to argument w, and whatever later calls do not differentiate with respect to w again, applying the gradient object of w to a direction gives the derivative of the vector the Functional returns; nothing is assumed about the kernels.", "quantifier": "all expressions, numbers of integrals, arguments, geometries, components and elements, call sequences, times, material states, arguments and directions at which the user's functions are differentiable and the Jacobians invertible", "why_tests_cant": "tests compare with difference quotients for single integrals and a fresh object; they cannot range over user functions, combinations of integrals and call sequences", "anchors": ["src/serac/numerics/functional/functional.hpp: operator(), ActionOfGradient", "src/serac/numerics/functional/integral.hpp: Mult, GradientMult, generate_kernels", "src/serac/numerics/functional/domain_integral_kernels.hpp: evaluation_kernel_impl, action_of_gradient_kernel", "src/serac/numerics/functional/boundary_integral_kernels.hpp: evaluation_kernel_impl, action_of_gradient_kernel"]}
{"id": "C106", "title": "The assembled sparse matrix of a Functional of user-written integrals is the Jacobian of the residual it returns", "statement": "Let a Functional consist of element and boundary integrals with functions the user writes with the library's arithmetic, on a mesh of any mixture of geometries. Every row of the vector it returns is the sum, over the integrals and over the elements, components and nodes numbered with this row, of the entries the kernels compute from the values at the element's degrees of freedom. Evaluating it with derivatives with respect to argument w and assembling the gradient succeed; evaluating it along any line through the argument succeeds; and in every row the assembled matrix times a direction is the derivative of the returned vector in that direction. Integrals that do not use argument w contribute nothing. The same holds for the global vectors and the global matrix on several processors. The vector does not depend on which derivatives were asked for.", "quantifier": "all meshes, numbers of processors, elements, components and nodes, lists of integrals, user expressions, arguments, and directions, at arguments where the user's functions are differentiable and the Jacobians invertible", "why_tests_cant": "tests compare assembled matrices with difference quotients or with the matrix-free action on single meshes for single integrals; they cannot range over meshes, user functions and combinations of integrals", "anchors": ["src/serac/numerics/functional/functional.hpp: operator(), assemble", "src/serac/numerics/functional/integral.hpp: Mult, ComputeElementGradients", "src/serac/numerics/functional/domain_integral_kernels.hpp: evaluation_kernel_impl, element_gradient_kernel", "src/serac/numerics/functional/boundary_integral_kernels.hpp: evaluation_kernel_impl, element_gradient_kernel", "src/serac/numerics/functional/element_restriction.cpp: Gather, ScatterAdd"]}
{"id": "C107", "title": "The gradient of a quantity of interest with user-written integrands is its derivative", "statement": "Let a scalar-valued Functional consist of element and boundary integrals with functions the user writes with the library's arithmetic. The number an element contributes is the sum over its quadrature points of weight times volume (on boundary elements: area) times the user's function at the interpolated arguments, whatever is differentiated. After an evaluation that differentiates with respect to argument w, and while later calls neither differentiate with respect to w again nor add integrals depending on w, the gradient vector can be assembled, the action of the gradient on a direction is the product with that vector, and both are the derivative of the quantity of interest; nothing is assumed about the kernels.", "quantifier": "all meshes, numbers of processors, integrals, arguments, components and nodes, user expressions, call sequences and directions, at arguments where the user's functions are differentiable and the Jacobians invertible", "why_tests_cant": "tests compare one gradient with one difference quotient for a few integrands on fixed meshes; they cannot range over user functions, meshes and call sequences", "anchors": ["src/serac/numerics/functional/functional_qoi.inl: operator(), ActionOfGradient, Gradient::assemble", "src/serac/numerics/functional/domain_integral_kernels.hpp: evaluation_kernel_impl, action_of_gradient_kernel, element_gradient_kernel", "src/serac/numerics/functional/boundary_integral_kernels.hpp: evaluation_kernel_impl, action_of_gradient_kernel, element_gradient_kernel", "src/serac/numerics/functional/detail/qoi.inl"]}
{"id": "C108", "title": "Every way a program ends shuts the libraries down in order and loses no message", "statement": "Take a program that calls serac::initialize, logs messages and flushes the logger, and ends with exitGracefully, and let signals (SIGINT, SIGABRT, SIGSEGV, SIGTERM) arrive at any time between its calls, as often as they like. Each logged message is printed at most once and in order, and all of them are when the process exits. MPI is finalized at most once, not unless it was initialized, and neither logger nor profiler nor PETSc is used after that; a process that exits has finalized MPI, logger and profiler if they were started, also when MPI or the logger could not be started. No library is used when it is not running. The process always exits, with success only if the program asked for it, MPI and logger could be started, and no signal reached it; with an uninterrupted run the status is the one asked for.", "quantifier": "all programs, messages, build options, numbers of ranks, outcomes of starting the libraries, and interleavings with signals", "why_tests_cant": "a test sees one ending of one process; signals during shutdown are not tested at all", "anchors": ["src/serac/infrastructure/initialize.cpp: initialize", "src/serac/infrastructure/terminator.cpp: exitGracefully, signalHandler, registerSignals", "src/serac/infrastructure/logger.cpp: initialize, flush, finalize", "src/serac/infrastructure/profiling.cpp: initialize, finalize"]}
{"id": "C109", "title": "differentiate_wrt differentiates with respect to the argument it marks", "statement": "Calling a Functional or ShapeAwareFunctional with plain vectors returns a value only. Wrapping one of the arguments in differentiate_wrt makes the same call return the same value and a gradient; applied to a direction dx, now or after further calls that neither differentiate with respect to that argument nor add integrals depending on it, the gradient gives the derivative of the values that calls with the marked argument x replaced by x + s dx return. Marking two arguments, or passing a number of arguments other than the number of trial spaces, is rejected by the compiler, and nothing else is.", "quantifier": "all numbers of arguments (below 2^31), positions of the mark, integrals, arguments, directions, and sequences of calls in between", "why_tests_cant": "tests mark the first or second argument of functionals with one to three; the statement is about every position and every history of calls", "anchors": ["src/serac/numerics/functional/differentiate_wrt.hpp: differentiate_wrt_this, differentiate_wrt", "src/serac/numerics/functional/functional.hpp: index_of_differentiation, operator()", "src/serac/numerics/functional/shape_aware_functional.hpp: operator()"]}
{"id": "C110", "title": "Loops over tensors of any rank visit every component once, in lexicographic order", "statement": "for_constexpr<n...>(f) calls f exactly once for each multi-index whose k-th index is below the k-th extent, in lexicographic order (later extents are inner loops), and does nothing else. Hence squared_norm of a tensor of any rank is the sum of the squares of all its components, chain_rule of a scalar-valued function is the inner product of derivative and increment, isnan says whether some component is not a number, and get_value and get_gradient of a tensor of dual numbers return the value and gradient of every component; make_dual of a tensor has its values, and gradients that contracted with an increment give the increment.", "quantifier": "all ranks and extents (including zero), loop bodies, and component values", "why_tests_cant": "tests call these functions for vectors and matrices of fixed size; rank and extents are template parameters without bound", "anchors": ["src/serac/numerics/functional/detail/metaprogramming.hpp: for_constexpr", "src/serac/numerics/functional/tensor.hpp: squared_norm, chain_rule, isnan", "src/serac/numerics/functional/tuple_tensor_dual_functions.hpp: make_dual, get_value, get_gradient"]}
{"id": "C111", "title": "Ranks that flush the logger equally often start and end together", "statement": "On any number of ranks, each logging what it likes at its own pace, a program that initializes, flushes the logger equally often on every rank and calls exitGracefully never reaches a state in which some rank has not ended and none can proceed, and every order of events is finite and ends with every rank exited with the status it asked for. The same should hold if signals arrive in between.", "quantifier": "all numbers of ranks, sequences of messages and flushes per rank, orders in which the ranks proceed, and arrivals of signals", "why_tests_cant": "tests run a fixed number of ranks with whatever order the scheduler happens to choose; a rank that waits for ever shows only in some orders", "anchors": ["src/serac/infrastructure/terminator.cpp: exitGracefully, signalHandler", "src/serac/infrastructure/initialize.cpp: initialize", "src/serac/infrastructure/logger.cpp: flush"]}
