{"id": "C01", "title": "Explicit stepper clock", "statement": "After constructing the explicit SSP-RK stepper and incrementing it k times, the stage counter is k mod nstages, the step counter is k div nstages, the timestamp is k, and the base time is exactly (k div nstages) * dt. The counters never leave their ranges and the time never runs ahead of or behind the step counter.", "quantifier": "every accepted (order, nstages) pair, every dt, every number of increments k", "why_tests_cant": "The claim is over unbounded histories of ++; tests sample a handful of steps of a few schemes.", "anchors": ["source/simulation/stepper/explicit_ssp_rk_stepper.hpp: ESSPRKStepper::operator++, GetStep, GetStage, GetTimestamp"]}
{"id": "C02", "title": "Accepted Runge-Kutta tableaux are convex and consistent", "statement": "The constructor accepts exactly the twelve (nstages, order) pairs it has tables for and throws for every other pair. For each accepted pair every stage row has nonnegative alpha weights that sum to one (exactly, or within the last printed decimal of the tabulated coefficients), nonnegative beta weights, and a beta weight is nonzero only where the corresponding alpha weight is positive, so each stage is a convex combination of forward-Euler steps.", "quantifier": "all (nstages, order) pairs of unsigned integers; all rows and columns of all tables", "why_tests_cant": "The existing unit test integrates one ODE; an error in one coefficient of one table can stay under its tolerance. The rejection side quantifies over all pairs.", "anchors": ["source/simulation/stepper/explicit_ssp_rk_stepper.cpp: ESSPRKStepper::InitializeCoefficients"]}
{"id": "C03", "title": "Strong stability preservation of a full step", "statement": "If forward Euler with any step size in [0, C*dt] maps a convex set of states into itself, where C is the largest beta/alpha ratio of the scheme, then a full SSP-RK step keeps the state inside this set (for the schemes whose rows sum exactly to one).", "quantifier": "all vector spaces of states, all convex sets, all right-hand-side operators, all dt, every scheme with exact rows", "why_tests_cant": "Quantifies over every operator and invariant region; a test checks one.", "anchors": ["source/simulation/stepper/explicit_ssp_rk_stepper.hpp: UpdateState", "source/simulation/stepper/explicit_ssp_rk_stepper.cpp"]}
{"id": "C04", "title": "Order of accuracy of each accepted tableau", "statement": "A scheme accepted for order p satisfies the Runge-Kutta order conditions up to order p (exactly for the rational tables, within the rounding of the printed decimals for the others) for the Butcher tableau that its Shu-Osher coefficients define.", "quantifier": "every accepted (nstages, order) pair", "why_tests_cant": "Convergence tests measure an observed rate on one ODE over a few dt; they cannot see a violated condition whose error term vanishes for this ODE.", "anchors": ["source/simulation/stepper/explicit_ssp_rk_stepper.cpp: InitializeCoefficients"]}
{"id": "C05", "title": "Stage times are consistent with the Runge-Kutta scheme", "statement": "GetTimeAtCurrentStage returns, at every stage, the time at which the stage value approximates the solution: t + c_i*dt where c_i is what the scheme yields for the problem q' = 1. Time-dependent boundary forcing and sources are evaluated at this time.", "quantifier": "every accepted scheme, every stage, every step", "why_tests_cant": "Unit tests use autonomous right-hand sides; the claim couples the abscissae to all coefficient tables.", "anchors": ["source/simulation/stepper/explicit_ssp_rk_stepper.cpp: crk/drk loops", "source/simulation/stepper/explicit_ssp_rk_stepper.hpp: GetTimeAtCurrentStage"]}
{"id": "C06", "title": "A full explicit step computes the Shu-Osher recurrence", "statement": "Advancing a solution through all the stages of one time step yields, as the current solution at the beginning of the next step, the value of the textbook Shu-Osher recurrence for the selected scheme, regardless of what earlier steps left in the stage storage; all storage accesses stay within the allocated number of stages plus one.", "quantifier": "all tables, all initial slot contents, all right-hand sides, all dt", "why_tests_cant": "Depends on loop bounds, slot reuse and the final swap for every table size and all stale contents.", "anchors": ["source/simulation/stepper/explicit_ssp_rk_stepper.hpp: UpdateState, operator++", "source/problem/SWE/discretization_RKDG/kernels_processor/rkdg_swe_proc_serial_step.hpp: stage_serial"]}
{"id": "C07", "title": "Forcing ramp", "statement": "With a zero ramp duration the ramp is 1 at all times. With a positive ramp duration the ramp starts at 0, stays in [0,1), is equal to tanh(2*(t/86400)/duration) of the current stage time after each increment, and never decreases.", "quantifier": "all ramp durations, all dt >= 0, all numbers of increments, all schemes", "why_tests_cant": "A statement about all histories of the stepper and all durations.", "anchors": ["source/simulation/stepper/explicit_ssp_rk_stepper.hpp: operator++, GetRamp", "source/simulation/stepper/implicit_stepper.hpp: operator++, GetRampNext"]}
{"id": "C08", "title": "Implicit and Strang-split steppers keep a consistent clock", "statement": "The implicit stepper accepts exactly (1,1), (2,1), (2,2), always advances one whole step per increment, has next time = time of the following step, its 'next ramp' becomes the ramp of the following step, and its theta gives backward Euler for order 1 and satisfies the second order condition for order 2. In the Strang-split stepper, two increments of the first (half-step) clock and one of the second cover the same simulated time after every full step.", "quantifier": "all histories, all dt", "why_tests_cant": "Unbounded histories and the interaction of two clocks.", "anchors": ["source/simulation/stepper/implicit_stepper.hpp", "source/simulation/stepper/second_strang_stepper.hpp"]}
{"id": "C09", "title": "Run covers the requested time; output schedule", "statement": "A run performs the least number of steps n with n*dt >= run_time. Output files are written for the initial state and for exactly those steps that are multiples of the configured output frequency, each once, with distinct file names; a zero frequency in steps is an error (division by zero), not a schedule.", "quantifier": "all run times, dt > 0, output frequencies", "why_tests_cant": "Quantifies over all durations/frequencies, including the ones where the frequency is smaller than dt.", "anchors": ["source/simulation/serial/simulation.hpp: Run", "source/simulation/writer.hpp: WriteOutput, WriteFirstStep", "source/preprocessor/input_parameters.hpp"]}
{"id": "C10", "title": "Simulation units are split over threads without gap or overlap", "statement": "The begin/end ranges that the OpenMP threads of a rank compute for N simulation units and T >= 1 threads are pairwise disjoint, in order, inside [0,N], and cover every unit exactly once. If a thread's begin index is past N its range is empty.", "quantifier": "all N, all T >= 1, all thread ids", "why_tests_cant": "All combinations of N and T; tests run one.", "anchors": ["source/simulation/ompi/simulation_ompi.hpp: Run"]}
{"id": "C11", "title": "Edge type encoding", "statement": "Internal, boundary and distributed edge type codes are disjoint and exhaustive over the byte range; marking an edge distributed maps each boundary/internal code below 192 to a code which decodes back by subtracting the offset, and marks an internal or levee code as distributed.", "quantifier": "all 256 codes", "why_tests_cant": "Exhaustive over codes, including ones no test mesh uses.", "anchors": ["source/utilities/edge_types.hpp"]}
{"id": "C12", "title": "Node-pair key identifies an undirected edge", "statement": "Two edges get the same 64-bit dictionary key iff they join the same two nodes, in any order, for all 32-bit node ids.", "quantifier": "all pairs of 32-bit node id pairs", "why_tests_cant": "2^128 combinations.", "anchors": ["source/preprocessor/mesh_metadata.cpp: MeshMetaData(const AdcircFormat&)"]}
{"id": "C13", "title": "Element adjacency built from a fort.14 mesh is correct", "statement": "For every conforming triangulation (no edge is used by more than two element faces) the constructed mesh metadata makes face f of element e internal with neighbour e' exactly when e' has a face with the same two end nodes, the neighbour relation is symmetric, boundary faces get the sentinel neighbour, and the result does not depend on the iteration order of the hash map of elements.", "quantifier": "all element tables, all iteration orders", "why_tests_cant": "Order of unordered_map iteration and mesh topology are unbounded; tests use one mesh and one library.", "anchors": ["source/preprocessor/mesh_metadata.cpp: MeshMetaData(const AdcircFormat&)"]}
{"id": "C14", "title": "Boundary classification of mesh edges", "statement": "An edge is recognised as part of a boundary list iff its two nodes are consecutive there (in either order); the returned boundary type is tide for open boundaries, else the type of the first listed land boundary that contains the edge, land for generic boundaries and levee ends, and an error otherwise.", "quantifier": "all node pairs, all boundary lists", "why_tests_cant": "All lists and positions, including first/last and repeated nodes.", "anchors": ["source/preprocessor/ADCIRC_reader/adcirc_format.cpp: get_ibtype, has_edge, is_levee_end"]}
{"id": "C15", "title": "Levee node pairing is an involution", "statement": "For an edge on the front of an internal barrier the opposite node pair is the edge formed by the connected back nodes with reversed orientation, and asking for the opposite of the opposite gives back the original edge.", "quantifier": "all barriers with distinct nodes, all edges of them", "why_tests_cant": "Quantifies over all barrier lengths and positions.", "anchors": ["source/preprocessor/ADCIRC_reader/adcirc_format.cpp: get_internal_node_pair"]}
{"id": "C16", "title": "Every boundary type the reader accepts can be classified", "statement": "Each boundary edge of a boundary segment whose type code the fort.14 reader accepts can be classified when the mesh metadata are built.", "quantifier": "all accepted IBTYPE codes and segments", "why_tests_cant": "Needs all codes times all positions.", "anchors": ["source/preprocessor/ADCIRC_reader/adcirc_format.cpp: AdcircFormat ctor, get_ibtype"]}
{"id": "C17", "title": "fort.14 write/read round trip", "statement": "Reading back what write_to has written restores nodes, elements and boundary segments unchanged (numbers being printed exactly), for each mesh which the reader accepted.", "quantifier": "all accepted meshes", "why_tests_cant": "Unbounded numbers of nodes, segments and barrier nodes; tests compare one file.", "anchors": ["source/preprocessor/ADCIRC_reader/adcirc_format.cpp: AdcircFormat ctor, write_to"]}
{"id": "C18", "title": "Mesh metadata write/read round trip", "statement": "Reading a mesh metadata file produced by WriteTo restores the same elements, neighbours, boundary types and nodes.", "quantifier": "all meshes and all boundary type codes", "why_tests_cant": "Codes are written as raw characters, so correctness depends on every byte value.", "anchors": ["source/preprocessor/mesh_metadata.cpp: operator<<, operator>>, WriteTo, MeshMetaData(const std::string&)"]}
{"id": "C19", "title": "Distributed boundary metadata are read consistently by both sides", "statement": "When two submeshes read the same block of a .dbmd file, each sees itself as 'in' and the other as 'ex', the i-th entry denotes the same physical edge on both sides with in/ex swapped, and a block that does not mention the reader is rejected.", "quantifier": "all blocks, all (locality, submesh) pairs", "why_tests_cant": "Pairs of readers over all blocks.", "anchors": ["source/preprocessor/mesh_metadata.cpp: DistributedBoundaryMetaData, DBPairMetaData"]}
{"id": "C20", "title": "Partitioning preserves the mesh", "statement": "The submeshes produced from any element-to-partition map contain every element of the input mesh exactly once, in the assigned submesh, with the same nodes and neighbours, and every node an element uses is present in its submesh.", "quantifier": "all meshes, all partition maps (METIS output is arbitrary)", "why_tests_cant": "METIS output is an oracle; tests see one output.", "anchors": ["partitioner/partition.cpp: partition"]}
{"id": "C21", "title": "Exactly the cut edges become distributed", "statement": "After partitioning, a face is marked distributed iff it is an internal-type face whose neighbour lies in another submesh; all the other faces keep their type.", "quantifier": "all conforming meshes and partition maps", "why_tests_cant": "All meshes and partitions.", "anchors": ["partitioner/partition.cpp", "source/utilities/edge_types.hpp: distributed"]}
{"id": "C22", "title": "Distributed interface files agree and are complete", "statement": "For each pair of submeshes with common edges, the partitioner writes the same block with the same pairs in the same order to the files of both sides, every cut edge appears exactly once there and each entry names an element and face on each side of the edge.", "quantifier": "all partitions of meshes in which contacts are mutual and two elements meet in at most one face", "why_tests_cant": "Receiver/sender buffer layouts only agree if the order agrees for every pair of submeshes.", "anchors": ["partitioner/write_distributed_interfaces.cpp"]}
{"id": "C23", "title": "Submesh numbering is a bijection", "statement": "The rank id used to collect submeshes and the (locality, submesh) pair used in file names determine each other, for any number of localities and submeshes per locality, and the partitioner's file names are those the parallel simulation looks for.", "quantifier": "all counts of localities/submeshes, all ids", "why_tests_cant": "All counts.", "anchors": ["partitioner/partition.cpp", "partitioner/write_distributed_interfaces.cpp", "source/preprocessor/input_parameters.hpp"]}
{"id": "C24", "title": "Partitioning graph is a well-formed symmetric CSR graph", "statement": "The CSR arrays passed to METIS have consistent lengths, in-range column indices, no self loops for loop-free input, and are symmetric with equal weights in both directions.", "quantifier": "all weighted graphs", "why_tests_cant": "METIS has undefined behaviour on asymmetric graphs; all graphs must be covered.", "anchors": ["partitioner/csrmat.hpp"]}
{"id": "C25", "title": "MPI tags pair each send with its receive and are unique", "statement": "For two submeshes the send tag of one side is the receive tag of the other, and between two ranks distinct (submesh, submesh) channels have distinct tags.", "quantifier": "all submesh ids", "why_tests_cant": "Collisions appear only for large ids.", "anchors": ["source/communication/ompi_communicator.cpp"]}
{"id": "C26", "title": "Exchange buffers do not overlap and deliver what was sent", "statement": "For every sequence of distributed boundaries with any numbers of Gauss points, the segments reserved in each communication buffer are disjoint and exactly fill the buffer; after all boundaries on one side have written their messages and the buffer was transferred, each boundary on the other side reads exactly the message of its counterpart.", "quantifier": "all sequences of boundaries, all communication types, all messages, any write order", "why_tests_cant": "Any number of boundaries, orders and message contents.", "anchors": ["source/communication/db_data_exchanger.hpp", "source/problem/SWE/discretization_RKDG/rkdg_swe_problem.hpp: comm_buffer_offsets", "source/problem/SWE/problem_preprocessor/swe_pre_create_dbound.hpp"]}
{"id": "C27", "title": "Generated rectangular meshes are valid triangulations", "statement": "For every mesh size and pattern the mesh generator writes each triangle slot exactly once, every triangle is counterclockwise and has positive area for a rectangle with positive sides, node ids are in range, the triangles tile the rectangle, and the boundary lists are the nodes of the four sides in order.", "quantifier": "all m, n >= 1, all three patterns, all rectangles", "why_tests_cant": "All sizes.", "anchors": ["mesh_generators/quad_mesh_generator.cpp"]}
{"id": "C28", "title": "Each shared edge yields exactly one interface", "statement": "Given the raw boundaries of all the elements of a consistent mesh, interface creation makes exactly one interface for each pair of mutually neighbouring faces and consumes both raw boundaries.", "quantifier": "all consistent meshes", "why_tests_cant": "All meshes; also orders of the ordered map.", "anchors": ["source/problem/SWE/problem_preprocessor/swe_pre_create_intface.hpp", "source/geometry/element.hpp: CreateRawBoundaries", "source/preprocessor/initialize_mesh.hpp"]}
{"id": "C29", "title": "No raw boundary is silently lost", "statement": "If some face of some element cannot be turned into an interface, boundary or distributed boundary, mesh initialisation reports an error instead of continuing without this face.", "quantifier": "all meshes, including inconsistent ones", "why_tests_cant": "Needs all kinds of malformed meshes.", "anchors": ["source/preprocessor/initialize_mesh.hpp", "source/problem/SWE/problem_preprocessor/swe_pre_create_intface.hpp"]}
{"id": "C30", "title": "Every boundary type the preprocessor emits has a boundary condition", "statement": "Each boundary type code that mesh metadata can contain is turned into a boundary condition by the SWE problem.", "quantifier": "all boundary type codes", "why_tests_cant": "Finite but each code needs a mesh.", "anchors": ["source/problem/SWE/problem_preprocessor/swe_pre_create_bound.hpp", "source/problem/SWE/swe_definitions.hpp"]}
{"id": "C31", "title": "Straight triangle geometry", "statement": "For every nondegenerate counterclockwise triangle: the three face normals are unit vectors, point outward, the length-weighted normals sum to zero, the Jacobian determinant is half the area and positive, the inverse Jacobian is the inverse of the map's derivative.", "quantifier": "all nondegenerate triangles", "why_tests_cant": "All triangles.", "anchors": ["source/shape/shapes_2D/shape_straighttriangle.cpp"]}
{"id": "C32", "title": "Master/physical coordinate maps are inverse", "statement": "Mapping a point to master coordinates and back returns the point, the vertices map to the corners of the master triangle, and the containment test accepts exactly the points of the closed triangle.", "quantifier": "all nondegenerate triangles, all points", "why_tests_cant": "All points and triangles.", "anchors": ["source/shape/shapes_2D/shape_straighttriangle.cpp: LocalToGlobalCoordinates, GlobalToLocalCoordinates, ContainsPoint"]}
{"id": "C33", "title": "Faces keep their identity for every input orientation", "statement": "The k-th face of an element's geometry joins the element's nodes (k+1)%3 and (k+2)%3, whatever the orientation in which the mesh lists the nodes.", "quantifier": "all triangles, both orientations", "why_tests_cant": "Test meshes are counterclockwise.", "anchors": ["source/shape/shapes_2D/shape_straighttriangle.cpp: StraightTriangle ctor", "source/geometry/element.hpp"]}
{"id": "C34", "title": "Gauss points on a shared edge coincide", "statement": "For two counterclockwise triangles sharing an edge, the gp-th point of the edge seen from one side and the (ngp-gp-1)-th seen from the other are the same physical point, for every symmetric one-dimensional rule, and the two outward normals are opposite.", "quantifier": "all pairs of adjacent triangles, all face numberings (9 combinations), all symmetric rules", "why_tests_cant": "All combinations of local face numbers and rules.", "anchors": ["source/master/elements_2D/master_triangle.tpp: BoundaryToMasterCoordinates", "source/geometry/interface.hpp"]}
{"id": "C35", "title": "Dubiner degree-of-freedom numbering", "statement": "The map from the dof index to the degree pair (p,q) is a bijection from the dofs of the polynomial space of degree P onto the pairs with p+q<=P; the total degree is nondecreasing.", "quantifier": "all dof indices", "why_tests_cant": "Uses floating-point sqrt/ceil; all indices.", "anchors": ["source/basis/bases_2D/basis_dubiner_2D.cpp: GetDubinerDOF / ndof formulas"]}
{"id": "C36", "title": "Linear part of the basis <-> vertex values", "statement": "Converting vertex values to modal coefficients and evaluating the basis at the vertices returns the vertex values; the conversion matrices are mutually inverse on the linear space and the mean is the zeroth coefficient.", "quantifier": "all vertex values", "why_tests_cant": "All values.", "anchors": ["source/basis/bases_2D/basis_dubiner_2D.cpp: ProjectBasisToLinear, ProjectLinearToBasis"]}
{"id": "C37", "title": "Basis orthogonality and mass matrix", "statement": "The 1-D Legendre basis returned by the library is L2-orthogonal on [-1,1] and the stored inverse mass is the inverse of the squared norm; the Dubiner basis likewise on the master triangle.", "quantifier": "all degrees up to 800 (beyond 812 the 32-bit coefficients overflow)", "why_tests_cant": "All degrees; tests use p <= some bound.", "anchors": ["source/basis/bases_1D/basis_legendre_1D.cpp", "source/basis/bases_2D/basis_dubiner_2D.cpp", "source/basis/polynomials/basis_polynomials.cpp"]}
{"id": "C38", "title": "Jacobi polynomial evaluation follows the classical definition", "statement": "For all degrees the library's rolling three-row recurrence equals the classical Jacobi polynomials, and the derivative routine equals the derivative of this polynomial.", "quantifier": "all degrees n and parameters a >= b with 2n+a+b <= 1625 (beyond that the 32-bit coefficients overflow), all x", "why_tests_cant": "All degrees and arguments.", "anchors": ["source/basis/polynomials/basis_polynomials.cpp"]}
{"id": "C39", "title": "Basis values at the collapsed vertex", "statement": "At the singular vertex (-1,1) the special-case formulas for the Dubiner basis and its derivatives give the limit values of the polynomial.", "quantifier": "all dofs of degree up to 800, all points", "why_tests_cant": "All degrees.", "anchors": ["source/basis/bases_2D/basis_dubiner_2D.cpp"]}
{"id": "C40", "title": "Quadrature tables are well formed", "statement": "For every supported degree the number of generated points equals the reported number, the weights sum to the area of the master element (within the printed precision), each orbit of the triangular rule is symmetric, the line rules are symmetric under reversal, unsupported degrees are refused.", "quantifier": "all degrees (supported and not)", "why_tests_cant": "A transposed digit in one of hundreds of constants is invisible unless this very degree is tested.", "anchors": ["source/integration/integrations_1D/integration_gausslegendre_1D.cpp", "source/integration/integrations_2D/integration_dunavant_2D.cpp"]}
{"id": "C41", "title": "Quadrature exactness", "statement": "A rule of degree p integrates all monomials of degree at most p exactly up to the rounding of the printed constants.", "quantifier": "all supported degrees, all monomials", "why_tests_cant": "See above; linear combination extends to all polynomials.", "anchors": ["source/integration/integrations_1D/integration_gausslegendre_1D.cpp", "source/integration/integrations_2D/integration_dunavant_2D.cpp"]}
{"id": "C42", "title": "Numerical flux is consistent", "statement": "The local Lax-Friedrichs flux of two equal states equals the physical (spherically scaled) normal flux of this state.", "quantifier": "all wet states, bathymetries, normals, spherical factors", "why_tests_cant": "Unit test uses scale factor 1.", "anchors": ["source/problem/SWE/discretization_RKDG/numerical_fluxes/rkdg_swe_LLF_flux.hpp: LLF_flux", "source/problem/SWE/problem_flux/swe_flux.hpp"]}
{"id": "C43", "title": "Numerical flux is conservative and interfaces exchange mass exactly", "statement": "Swapping the sides and reversing the normal negates the flux, so what leaves one element enters the other. At an interface the mass fluxes used on both sides are opposite in all wet/dry cases except the reflective one, in which neither side exchanges mass.", "quantifier": "all states, normals, all wet/dry combinations", "why_tests_cant": "All states and branches.", "anchors": ["source/problem/SWE/discretization_RKDG/numerical_fluxes/rkdg_swe_LLF_flux.hpp", "source/problem/SWE/discretization_RKDG/interface_specializations/rkdg_swe_is_internal.hpp"]}
{"id": "C44", "title": "Distributed interface computes the same flux as the serial one", "statement": "On an interface split across ranks, each side computes from its own data and the received message exactly the flux this side would have got from the serial interface routine.", "quantifier": "all states, wet/dry flags, normals, Gauss point counts, continuous bathymetry", "why_tests_cant": "Equivalence over all states and branches.", "anchors": ["source/problem/SWE/discretization_RKDG/dist_boundary_conditions/rkdg_swe_dbc_distributed.hpp", "source/problem/SWE/discretization_RKDG/interface_specializations/rkdg_swe_is_internal.hpp"]}
{"id": "C45", "title": "Land boundaries are impermeable", "statement": "The mass flux through a land boundary is zero and the momentum flux is the pressure, for every state and unit normal; the mirror state is an involution.", "quantifier": "all wet states, all unit normals", "why_tests_cant": "All states.", "anchors": ["source/problem/SWE/discretization_RKDG/boundary_conditions/rkdg_swe_bc_land.hpp"]}
{"id": "C46", "title": "Levee overtopping conserves mass", "statement": "The water that leaves one side of a levee enters the other side: the mass fluxes computed on both sides are opposite; below the crest nothing passes.", "quantifier": "all states, crest heights and coefficients", "why_tests_cant": "All states/branches.", "anchors": ["source/problem/SWE/discretization_RKDG/interface_specializations/rkdg_swe_is_levee.hpp", "source/problem/SWE/discretization_RKDG/dist_boundary_conditions/rkdg_swe_dbc_distributed_levee.hpp"]}
{"id": "C47", "title": "Flux Jacobian and eigendecomposition", "statement": "The coded Jacobian is the derivative of the coded flux; the eigenvector matrices are inverse to each other for unit normals and positive depth; R*L*R^-1 is the Jacobian; the coded derivatives of A, |A|, A+, A- by each variable are the derivatives of these matrices.", "quantifier": "all wet states, unit normals (away from the kinks of |lambda|)", "why_tests_cant": "All states; finite differences only sample.", "anchors": ["source/problem/SWE/problem_flux/swe_flux.hpp: get_dF_dq, get_dFn_dq", "source/problem/SWE/problem_jacobian/swe_jacobian.hpp"]}
{"id": "C48", "title": "Lake at rest is preserved", "statement": "With constant water level, no momentum and any bathymetry (continuous, representable in the basis), RKDG stages leave the state unchanged in exact arithmetic with exact integration rules: interface and boundary fluxes, volume terms and the bathymetry source cancel, wetting-drying and limiter change nothing. With the program's rounded integration tables the right-hand side is at most 2^-45 times a sum of coefficients of the data.", "quantifier": "all bathymetries and water levels, spherical factor 1", "why_tests_cant": "All bathymetries.", "anchors": ["source/problem/SWE/problem_flux/swe_flux.hpp", "source/problem/SWE/problem_source/swe_source.hpp", "source/problem/SWE/discretization_RKDG/kernels_processor"]}
{"id": "C49", "title": "Wetting/drying keeps depths positive and conserves mass", "statement": "After the wetting-drying treatment each vertex depth of a treated element is at least the threshold, the element's mean depth is unchanged unless the element was emptied (depth below the threshold, flagged), momentum is conserved when redistributed and zero in dry elements, and no array index leaves the range.", "quantifier": "all vertex values, bathymetries and parameters h_o > 0", "why_tests_cant": "Branches depend on the order of three depths, equality cases included.", "anchors": ["source/problem/SWE/problem_postprocessor/swe_post_wet_dry.hpp: wetting_drying_kernel"]}
{"id": "C50", "title": "Slope limiter preserves element means and is idempotent on constants", "statement": "The Cockburn-Shu limiter never changes the element mean of any variable; the minmod and theta corrections make the limited midpoint deltas sum to zero; constants are left alone.", "quantifier": "all states, all geometries", "why_tests_cant": "All inputs.", "anchors": ["source/problem/SWE/problem_slope_limiter/swe_CS_slope_limiter.hpp"]}
{"id": "C51", "title": "Troubled-cell detection uses the normal momentum", "statement": "The inflow faces used by the discontinuity detector are those with negative normal momentum.", "quantifier": "all states and normals", "why_tests_cant": "All states.", "anchors": ["source/problem/SWE/problem_slope_limiter/swe_trouble_check.hpp"]}
{"id": "C52", "title": "Enabled source terms act", "statement": "If Coriolis, meteorological or tidal-potential forcing is enabled in the input, the computed source contains the corresponding term.", "quantifier": "all configurations and states", "why_tests_cant": "All configurations.", "anchors": ["source/problem/SWE/problem_source/swe_source.hpp: get_source"]}
{"id": "C53", "title": "Bottom friction dissipates", "statement": "The friction source always opposes the momentum: its product with momentum is nonpositive, its coefficient never falls below the configured minimum.", "quantifier": "all wet states, all coefficients >= 0", "why_tests_cant": "All states.", "anchors": ["source/problem/SWE/problem_source/swe_source.hpp"]}
{"id": "C54", "title": "Meteorological data window", "statement": "At each stage of each step the two data sets needed for interpolation have been loaded, data that are not needed are discarded (at most two sets in memory), and interpolation weights lie in [0,1).", "quantifier": "all histories, all parse frequencies >= 1", "why_tests_cant": "Unbounded histories.", "anchors": ["source/problem/SWE/problem_parser/swe_parser.hpp"]}
{"id": "C55", "title": "Input settings survive being rewritten", "statement": "Parsing the YAML node that as_yaml_node produces restores the same SWE settings.", "quantifier": "all settings which the parser can produce", "why_tests_cant": "All combinations of options.", "anchors": ["source/problem/SWE/problem_input/swe_inputs.cpp: Inputs(YAML::Node&), as_yaml_node"]}
{"id": "C56", "title": "Boundary-condition file parsing", "statement": "read_bcis restores the tide, flow and levee data of a file laid out in the documented format: each node gets its amplitude and phase for every constituent in order.", "quantifier": "all numbers of nodes, constituents and boundaries", "why_tests_cant": "All sizes.", "anchors": ["source/problem/SWE/problem_input/swe_inputs.cpp: read_bcis"]}
{"id": "C57", "title": "A stage conserves mass globally", "statement": "Over a closed basin (land boundaries only, all elements wet) the total water volume after an RKDG stage equals that before, in exact arithmetic.", "quantifier": "all meshes, states and time steps", "why_tests_cant": "All meshes and states.", "anchors": ["source/problem/SWE/discretization_RKDG/kernels_processor"]}
{"id": "C58", "title": "Approximate comparison and periodic timer utilities", "statement": "almost_equal is reflexive and symmetric and never true for numbers further apart than the tolerance allows; the heartbeat fires at most once per period and its next firing time is not in the past after each poll.", "quantifier": "all numbers; all poll sequences with positive period", "why_tests_cant": "All inputs/histories.", "anchors": ["source/utilities/almost_equal.hpp", "source/utilities/heartbeat.hpp"]}
{"id": "C59", "title": "Heterogeneous containers behave like typed maps/vectors", "statement": "After any sequence of insertions of objects of several types, at<T>(i) returns the i-th inserted object of type T, sizes add up, map insertion never overwrites an existing key and a missing key is reported.", "quantifier": "all insertion sequences", "why_tests_cant": "Histories.", "anchors": ["source/utilities/heterogeneous_containers.hpp"]}
{"id": "C60", "title": "Generated meshes pass through the reader and the adjacency builder", "statement": "The fort.14 file written by the mesh generator is accepted by the reader, and the metadata are built from it for every iteration order of the hash maps; faces on a side of the rectangle have the boundary type chosen for that side and no neighbour, every other face is internal and its neighbour has the reversed face.", "quantifier": "all sizes up to 2^32 nodes, all patterns, all combinations of side types, all iteration orders", "why_tests_cant": "All sizes and side types; spans three programs.", "anchors": ["mesh_generators/quad_mesh_generator.cpp", "source/preprocessor/ADCIRC_reader/adcirc_format.cpp", "source/preprocessor/mesh_metadata.cpp"]}
{"id": "C61", "title": "Output tessellation matches the output data", "statement": "For every number of divisions n >= 1 the element is split into n^2 cells of equal area; the points written are the images of the points at which the solution is evaluated, the cell's point numbers refer to points of the same element, and the cell values are those at the centroid of the cell.", "quantifier": "all n >= 1, all triangles, all numbers of points written before", "why_tests_cant": "All n, all triangles; a shifted index only distorts pictures.", "anchors": ["source/shape/shapes_2D/shape_straighttriangle.cpp: GetVTK", "source/master/elements_2D/master_triangle.tpp: VTKPostCell, VTKPostPoint"]}
{"id": "C62", "title": "Open boundaries impose the harmonic forcing", "statement": "The exterior level of a tide boundary is ramp * sum of ff*amp*cos(freq*t + (eq - phase)*pi/180) over the constituents with the interior discharge kept; a flow boundary keeps the level and imposes that sum as discharge along the outward normal; with ramp zero the imposed level or discharge is zero.", "quantifier": "all numbers of constituents, all data, times and states", "why_tests_cant": "All constituents and times.", "anchors": ["source/problem/SWE/discretization_RKDG/boundary_conditions/rkdg_swe_bc_tide.hpp", "source/problem/SWE/discretization_RKDG/boundary_conditions/rkdg_swe_bc_flow.hpp"]}
{"id": "C63", "title": "Stabilization parameter is the spectral radius", "statement": "The Lax-Friedrichs stabilization matrix of the hybridized schemes is t times the identity where t is the largest absolute characteristic speed, and the coded derivatives by each variable are its derivatives.", "quantifier": "all wet states and normals (derivatives away from zero normal velocity)", "why_tests_cant": "All states.", "anchors": ["source/problem/SWE/problem_stabilization_parameters/swe_stab_param_LF.hpp"]}
{"id": "C64", "title": "Weir discharge over a levee", "statement": "With equal coefficients the overtopping discharge is the maximum of C*x*sqrt(2g(hi-x)) over depths x between the lower and the higher level; with different coefficients its square is 2g*Csub^2*lo^2*(hi-lo) in the submerged and g*Csuper^2*(2hi/3)^3 in the free regime, the regimes meeting at lo = 2hi/3.", "quantifier": "all levels with the higher one above the crest, all coefficients", "why_tests_cant": "All levels; the switch of regime is an equality case.", "anchors": ["source/problem/SWE/discretization_RKDG/interface_specializations/rkdg_swe_is_levee.hpp"]}
{"id": "C65", "title": "Slope limiter accepts linear data", "statement": "If level and discharges coincide with one linear function on an element and at the barycentres of its neighbours (in general position), the limiter changes nothing, for nu >= 1; limiting is done in the eigenvectors of the flux Jacobian at the mean state in the direction of the median, and otherwise slopes are reduced, never increased or reversed.", "quantifier": "all triangles, all linear functions, all wet mean states, all parameters", "why_tests_cant": "All geometries and data.", "anchors": ["source/problem/SWE/problem_slope_limiter/swe_CS_slope_limiter.hpp", "source/problem/SWE/problem_preprocessor/swe_pre_init_data.hpp"]}
{"id": "C66", "title": "Slope limiter sees the present neighbours, also across submeshes", "statement": "When the limiting kernel runs, every side of an element holds the present wet flag of what is across it and, if both are wet, the present means; so the limited state does not depend on data left from earlier stages, or on whether the neighbour is on the same submesh.", "quantifier": "all meshes in which every side belongs to one face, all states and histories, all partitions", "why_tests_cant": "Stale data in reused arrays show only in rare wet/dry histories.", "anchors": ["source/problem/SWE/problem_slope_limiter/swe_CS_slope_limiter.hpp", "source/problem/SWE/problem_slope_limiter/swe_CS_sl_ompi.hpp"]}
{"id": "C67", "title": "Troubled area spreads five elements", "statement": "An element is marked as troubled exactly if it can be reached from an element whose scaled jump exceeds one by crossing at most five neighbours of the submesh.", "quantifier": "all meshes, all sets of seeds", "why_tests_cant": "All graphs.", "anchors": ["source/problem/SWE/problem_slope_limiter/swe_trouble_check.hpp"]}
{"id": "C68", "title": "Detector gives the same result on distributed meshes", "statement": "The jump computed at a submesh boundary is the jump the serial program computes at the same interface.", "quantifier": "all states, wet or dry on each side", "why_tests_cant": "Needs a wet-dry front on a partition boundary.", "anchors": ["source/problem/SWE/problem_slope_limiter/swe_trouble_check.hpp", "source/problem/SWE/problem_slope_limiter/swe_CS_slope_limiter.hpp: slope_limiting_distributed_boundary_send_kernel"]}
{"id": "C69", "title": "Newton matrix of the implicit source", "statement": "The entries dsource_dq that the implicit scheme puts into its Newton matrix are finite and equal the derivatives of the source terms with respect to water level and discharge.", "quantifier": "all wet states, friction coefficients and bathymetries", "why_tests_cant": "A derivative is a statement about a neighbourhood of every state; a test sees only slower convergence.", "anchors": ["source/problem/SWE/discretization_IHDG/kernels_processor/ihdg_swe_proc_source.hpp", "source/problem/SWE/problem_source/swe_source.hpp"]}
{"id": "C70", "title": "Partitioned run computes the serial result", "statement": "On a mesh shared out over submeshes, with every cut interface replaced by a pair of distributed boundaries exchanging messages, any number of stages (right-hand side, stage update, wetting and drying, slope limiter) gives the same result as the serial program on the whole mesh; one succeeds if and only if the other does.", "quantifier": "all meshes and partitions, all states and wet/dry flags, all stage tables, internal and levee interfaces cut, equal degrees and opposite edges at cuts, continuous bathymetry, projection factor 1", "why_tests_cant": "All partitions, states and numbers of stages; a test compares one run on one partition.", "anchors": ["source/problem/SWE/discretization_RKDG/kernels_processor/rkdg_swe_proc_ompi_step.hpp: stage_ompi", "source/problem/SWE/discretization_RKDG/kernels_processor/rkdg_swe_proc_dbound.hpp", "source/problem/SWE/problem_slope_limiter/swe_CS_sl_ompi.hpp", "source/problem/SWE/discretization_RKDG/kernels_processor/rkdg_swe_proc_serial_step.hpp: stage_serial"]}
{"id": "C71", "title": "Input file of the parallel run", "statement": "Whenever the serial program accepts an input file, the partitioner accepts it, and the input file the partitioner writes is read as the same input with the mesh file replaced by the metadata file; the submesh file names a rank derives from it are those the partitioner writes.", "quantifier": "all input files of the SWE and GN problems, all optional sections", "why_tests_cant": "All combinations of options and file names; a wrong name shows only for one combination.", "anchors": ["source/preprocessor/input_parameters.hpp: InputParameters, write_to, read_mesh, read_bcis", "partitioner/partitioner.cpp", "source/problem/SWE/problem_input/swe_inputs.cpp"]}
{"id": "C72", "title": "Right-hand side is the weak form of the equations", "statement": "The right-hand side a stage computes, in master coordinates and face by face, equals in map coordinates the quadrature of flux times gradient of the test function plus source, minus the numerical flux through each edge with both traces taken at the same point; and the integral of the computed rate of change against each test function is that weak form.", "quantifier": "all straight meshes of counterclockwise wet triangles with conforming edges, all states, bathymetries, friction coefficients, boundary data and times, projection factor 1", "why_tests_cant": "A wrong sign, index or Jacobian still gives plausible flow in a test; the equality is with the equations for every state on every mesh.", "anchors": ["source/problem/SWE/discretization_RKDG/kernels_processor/rkdg_swe_proc_volume.hpp", "source/problem/SWE/discretization_RKDG/kernels_processor/rkdg_swe_proc_source.hpp", "source/problem/SWE/discretization_RKDG/kernels_processor/rkdg_swe_proc_intface.hpp", "source/problem/SWE/discretization_RKDG/kernels_processor/rkdg_swe_proc_bound.hpp", "source/geometry/element.hpp"]}
{"id": "C73", "title": "Uniform stream is preserved", "statement": "Constant water level and discharge over a flat bed without friction, with boundaries that agree with it, is left unchanged by any number of stages including wetting and drying and the limiter; with the integration tables of the program the right-hand side is bounded by their rounding error.", "quantifier": "all straight meshes whose element faces are covered once, all degrees, uniform states and depths, any number of stages of the stage tables with exact row sums", "why_tests_cant": "All meshes and uniform states; metric terms that do not cancel show only on irregular meshes.", "anchors": ["source/problem/SWE/discretization_RKDG/kernels_processor/rkdg_swe_proc_serial_step.hpp: stage_serial", "source/problem/SWE/discretization_RKDG/kernels_processor/rkdg_swe_proc_volume.hpp", "source/problem/SWE/discretization_RKDG/kernels_processor/rkdg_swe_proc_intface.hpp", "source/problem/SWE/discretization_RKDG/kernels_processor/rkdg_swe_proc_bound.hpp", "source/geometry/element.hpp"]}
{"id": "C74", "title": "Hybridized interface flux", "statement": "The explicit hybridized discretization computes at every pair of Gauss points of an interface the flux of the mean state plus the wave speed of the mean times the deviation on the interior side, and its negative on the exterior side, although its loop overwrites columns of one matrix while copying them to the other; with dry elements the two sides still exchange the same amount of water and none leaves a dry element; the flux of a state with itself is the physical one.", "quantifier": "all numbers of Gauss points, states, bathymetries, normals, wet flags, and former contents of the matrices", "why_tests_cant": "The in-place loop has an order dependence which tests with one or two Gauss points may not show.", "anchors": ["source/problem/SWE/discretization_EHDG/interface_specializations/ehdg_swe_is_internal.hpp", "source/problem/SWE/discretization_EHDG/kernels_preprocessor/ehdg_swe_pre_init_global_prob.hpp"]}
{"id": "C75", "title": "Hybridized land and distributed flux", "statement": "At land no water passes and the tangential momentum flux is zero; both ranks at an interface cut by the partition compute, from their data and the messages exchanged at the start and in each stage, exactly the fluxes of the uncut interface.", "quantifier": "all wet states and unit normals; all numbers of Gauss points, states, bathymetries of both sides, and wet flags", "why_tests_cant": "Orderings of Gauss points on two ranks; a wrong index is invisible if data are constant along the face.", "anchors": ["source/problem/SWE/discretization_EHDG/boundary_conditions/ehdg_swe_bc_land.hpp", "source/problem/SWE/discretization_EHDG/dist_boundary_conditions/ehdg_swe_dbc_distributed.hpp", "source/problem/SWE/discretization_EHDG/kernels_processor/ehdg_swe_proc_dbound.hpp"]}
{"id": "C76", "title": "Hybridized scheme conserves water", "statement": "In a closed basin the total water is the same after any number of stages of the explicit hybridized scheme, with wetting and drying and limiting, unless an element is emptied.", "quantifier": "all closed basins of ordinary interfaces and land, all states, wet flags, time steps, numbers of stages, contents of the flux matrices before each stage", "why_tests_cant": "All meshes, states and wet/dry patterns.", "anchors": ["source/problem/SWE/discretization_EHDG/kernels_processor/ehdg_swe_proc_serial_step.hpp", "source/problem/SWE/discretization_EHDG/kernels_processor/ehdg_swe_proc_volume.hpp", "source/problem/SWE/discretization_EHDG/kernels_processor/ehdg_swe_proc_intface.hpp", "source/problem/SWE/discretization_EHDG/kernels_processor/ehdg_swe_proc_bound.hpp"]}
{"id": "C77", "title": "Hybridized scheme preserves lake at rest and uniform stream", "statement": "Still water over any bed continuous at the Gauss points, and a uniform stream over a flat bed, are unchanged after any number of stages of the explicit hybridized scheme.", "quantifier": "all straight meshes whose element faces are covered once, all degrees, levels, beds, streams, numbers of stages; open boundaries whose traces agree", "why_tests_cant": "All meshes and beds.", "anchors": ["source/problem/SWE/discretization_EHDG/kernels_processor/ehdg_swe_proc_serial_step.hpp", "source/problem/SWE/discretization_EHDG/kernels_processor/ehdg_swe_proc_volume.hpp", "source/problem/SWE/discretization_EHDG/interface_specializations/ehdg_swe_is_internal.hpp", "source/problem/SWE/discretization_EHDG/boundary_conditions/ehdg_swe_bc_land.hpp"]}
{"id": "C78", "title": "Hybridized scheme implements levees and projection", "statement": "Every interface type which the input may contain gets a computed flux in the explicit hybridized scheme, and the projection factor enters the fluxes as in the RKDG scheme.", "quantifier": "all meshes with levees; all projection factors", "why_tests_cant": "The unimplemented case leaves the former contents of memory, which may look harmless in a run.", "anchors": ["source/problem/SWE/discretization_EHDG/interface_specializations/ehdg_swe_is_levee.hpp", "source/problem/SWE/discretization_EHDG/kernels_processor/ehdg_swe_proc_volume.hpp"]}
{"id": "C79", "title": "Layout of matrices and edge trace spaces", "statement": "Flattening a matrix into a row of the edge tables and reshaping the result gives the matrix back, in both linear algebra backends alike; the trace functions of both sides of an edge cut by the partition agree point by point although one side numbers its Gauss points backwards; the number of trace functions, which the code reads off as the number of Gauss points, equals degree plus one, and the tables of every degree are invertible.", "quantifier": "all matrices and sizes; all degrees up to 32, all edge lengths, both orientations", "why_tests_cant": "All indices of all sizes; symmetric test data hide transposition.", "anchors": ["source/utilities/linear_algebra/use_blaze.hpp: flatten, reshape", "source/utilities/linear_algebra/use_eigen.hpp: flatten, reshape", "source/geometry/edge_boundary.hpp", "source/geometry/edge_interface.hpp", "source/problem/SWE/problem_preprocessor/swe_pre_create_edge_dbound.hpp"]}
{"id": "C80", "title": "Trace of open boundaries in the hybridized scheme", "statement": "Every iteration for the trace at an open boundary is a Newton step: the vector is minus the residual of the boundary condition and the matrix its derivative; the iteration leaves a trace alone exactly if at every Gauss point its outgoing waves are those of the interior and its incoming waves those of the prescribed state; a uniform stream that is prescribed is kept and gets the physical flux.", "quantifier": "all degrees, edges, wet states without vanishing characteristic speed, all solvers of regular linear systems", "why_tests_cant": "A derivative is a statement about a neighbourhood of every state; a wrong entry shows only as slower convergence.", "anchors": ["source/problem/SWE/discretization_EHDG/boundary_conditions/compute_bc_trace.hpp", "source/problem/SWE/discretization_EHDG/boundary_conditions/ehdg_swe_bc_tide.hpp", "source/problem/SWE/discretization_EHDG/boundary_conditions/ehdg_swe_bc_flow.hpp"]}
{"id": "C81", "title": "Newton matrix of open boundaries is regular", "statement": "The linear system of the trace at an open boundary is uniquely solvable in equilibrium, where interior, prescribed state and trace are the same.", "quantifier": "all wet states, degrees and edges", "why_tests_cant": "Singular only on a set of measure zero, which contains water at rest.", "anchors": ["source/problem/SWE/discretization_EHDG/boundary_conditions/compute_bc_trace.hpp"]}
{"id": "C82", "title": "Static condensation of the implicit scheme", "statement": "The unknowns of the traces are numbered without gaps or overlaps, and each face of an element refers to the numbers of its edge; the global system assembled from the element blocks, solved, and substituted back gives corrections that satisfy every equation of every element and of every edge; and any corrections that satisfy those equations solve the assembled system.", "quantifier": "all meshes whose faces belong to one edge each, all degrees, block matrices and right-hand sides, all exact solvers", "why_tests_cant": "Equivalence of two linear systems for all matrices; a wrong block is masked in meshes with one interface.", "anchors": ["source/problem/SWE/discretization_IHDG/kernels_preprocessor/ihdg_swe_pre_init_global_prob.hpp: initialize_global_problem_serial", "source/problem/SWE/discretization_IHDG/kernels_processor/ihdg_swe_proc_serial_sol_glob_prob.hpp: serial_solve_global_problem"]}
{"id": "C83", "title": "Newton matrices of the implicit scheme", "statement": "In every iteration of an implicit step each entry of the matrices of elements and edges is minus the derivative of the right-hand side of that element or edge with respect to that coefficient of that element or trace.", "quantifier": "all meshes, degrees, states, traces, boundary conditions, source terms, time steps, both orders", "why_tests_cant": "A derivative is a statement about a neighbourhood of every state; a wrong entry shows only as slower convergence, and the code does not check convergence.", "anchors": ["source/problem/SWE/discretization_IHDG/kernels_processor/ihdg_swe_proc_volume.hpp", "source/problem/SWE/discretization_IHDG/kernels_processor/ihdg_swe_proc_source.hpp", "source/problem/SWE/discretization_IHDG/kernels_processor/ihdg_swe_proc_edge_intface.hpp", "source/problem/SWE/discretization_IHDG/kernels_processor/ihdg_swe_proc_edge_bound.hpp", "source/problem/SWE/discretization_IHDG/interface_specializations/ihdg_swe_is_internal.hpp", "source/problem/SWE/discretization_IHDG/boundary_conditions/ihdg_swe_bc_land.hpp", "source/problem/SWE/discretization_IHDG/boundary_conditions/ihdg_swe_bc_tide.hpp", "source/problem/SWE/discretization_IHDG/boundary_conditions/ihdg_swe_bc_flow.hpp", "source/problem/SWE/discretization_IHDG/boundary_conditions/ihdg_swe_bc_function.hpp"]}
{"id": "C84", "title": "Forcing of open boundaries in the implicit scheme", "statement": "At the start of a step and in all its iterations a tide or flow boundary uses the prescribed sum of constituents, with equilibrium arguments and phases in degrees.", "quantifier": "all lists of constituents, times and ramp values", "why_tests_cant": "Tests use zero phases; the error shows only with the phases of real tides.", "anchors": ["source/problem/SWE/discretization_IHDG/boundary_conditions/ihdg_swe_bc_tide.hpp: ComputeGlobalKernels", "source/problem/SWE/discretization_IHDG/boundary_conditions/ihdg_swe_bc_flow.hpp: ComputeGlobalKernels"]}
{"id": "C85", "title": "The implicit scheme conserves water", "statement": "In a closed basin every iteration of an implicit step of order one keeps the water exactly, converged or not, if the old land traces let no water through, which the initial traces and every iteration ensure; if they do not fit, the second iteration restores it; a step of order two changes the water by exactly the old trace fluxes that do not cancel, which is nothing at the start; so any number of steps of order one conserves the water.", "quantifier": "all closed basins, degrees, states, time steps, numbers of steps, all exact solvers", "why_tests_cant": "Conservation up to the tolerance of the Newton iteration looks the same in a test; here every iterate is exact.", "anchors": ["source/problem/SWE/discretization_IHDG/kernels_processor/ihdg_swe_proc_serial_step.hpp: stage_serial", "source/problem/SWE/discretization_IHDG/kernels_processor/ihdg_swe_proc_init_iter.hpp", "source/problem/SWE/discretization_IHDG/boundary_conditions/ihdg_swe_bc_land.hpp"]}
{"id": "C86", "title": "Fixed points of the implicit iteration", "statement": "A Newton iteration of the implicit scheme changes no coefficient exactly if the iterate satisfies the equations of the step: the weak form of (q - q0)/dt = (1 - theta) R(q, t + dt) + theta R(q0, t), the last term only with order two, with the fluxes of the traces, and at every Gauss point of every edge the condition of the interface or boundary; then the iteration stops.", "quantifier": "all meshes, degrees, states, traces, boundary conditions, both orders, all exact inverses and solvers", "why_tests_cant": "An iteration with wrong matrices but right residuals converges to the same solution and vice versa; a test sees neither.", "anchors": ["source/problem/SWE/discretization_IHDG/kernels_processor/ihdg_swe_proc_serial_step.hpp: stage_serial", "source/problem/SWE/discretization_IHDG/kernels_processor/ihdg_swe_proc_serial_sol_glob_prob.hpp: serial_solve_global_problem"]}
{"id": "C87", "title": "Lake at rest and uniform stream in the implicit scheme", "statement": "Any number of implicit steps of either order keeps a lake at rest over any continuous bed, and a uniform stream over a flat bed whose boundaries agree with it, unchanged in elements and traces.", "quantifier": "all meshes, degrees, levels, streams, time steps, numbers of steps, with or without bottom friction at rest", "why_tests_cant": "Rounding hides small spurious velocities; a state that is not a number needs the friction term and still water together.", "anchors": ["source/problem/SWE/discretization_IHDG/kernels_processor/ihdg_swe_proc_serial_step.hpp", "source/problem/SWE/discretization_IHDG/kernels_processor/ihdg_swe_proc_edge_intface.hpp", "source/problem/SWE/discretization_IHDG/kernels_processor/ihdg_swe_proc_source.hpp"]}
{"id": "C88", "title": "Elimination in the dispersive correction", "statement": "The edges with a wet side get the numbers 0, 1, ..., each once and known at all their faces; the solution of the condensed sparse system and the back substitution solve the whole block system of the dispersive correction in the wet elements and on the edges with a wet side, and every solution of the whole system solves the condensed one.", "quantifier": "all meshes, wet and dry states, blocks, right-hand sides, all exact solvers", "why_tests_cant": "The unknowns of the whole system are never formed by the code, so a test cannot compare with them; wrong signs in a coupling block show only as a different, plausible wave.", "anchors": ["source/problem/Green-Naghdi/discretization_EHDG/kernels_preprocessor/ehdg_gn_pre_init_global_prob.hpp: initialize_global_dc_problem_serial", "source/problem/Green-Naghdi/discretization_EHDG/kernels_processor/ehdg_gn_proc_serial_sol_glob_prob.hpp: serial_solve_global_dc_problem"]}
{"id": "C89", "title": "The dispersive correction fails only with its solvers", "statement": "If the dense and the sparse solver find solutions then the global problem of the dispersive correction reads only within its vectors and yields a correction.", "quantifier": "all meshes, sequences of wet and dry states", "why_tests_cant": "An index left from an earlier step is out of range only for certain histories of wetting and drying.", "anchors": ["source/problem/Green-Naghdi/discretization_EHDG/kernels_processor/ehdg_gn_proc_serial_sol_glob_prob.hpp: serial_solve_global_dc_problem"]}
{"id": "C90", "title": "Source of the dispersive correction", "statement": "The right-hand side the dispersive correction integrates, made of the derivatives of level, velocity and bed, is the source of the Green-Naghdi equations (with alpha) for the flow these derivatives belong to.", "quantifier": "all smooth surface levels, beds and velocities, all points with positive depth", "why_tests_cant": "The wrong sign of one derivative vanishes on flat beds, which are what the examples of the program use, and gives a plausible wave elsewhere.", "anchors": ["source/problem/Green-Naghdi/discretization_EHDG/kernels_processor/ehdg_gn_proc_source.hpp: local_dc_source_kernel"]}
{"id": "C91", "title": "Derivatives of the dispersive correction are exact for polynomials", "statement": "The first, second and third derivatives of level, velocity and bed used in the dispersive correction are the derivatives of the flow, when this is a polynomial the elements can represent; with quadrature rules of a given accuracy they are off by at most a multiple of it.", "quantifier": "all conforming meshes with boundary, degrees, polynomials of a degree the elements represent", "why_tests_cant": "A derivative with a wrong sign at the outer boundary or on one side of an interface is still a derivative up to an error of the mesh size.", "anchors": ["source/problem/Green-Naghdi/grad_methods/projection_derivatives_serial.hpp", "source/problem/Green-Naghdi/grad_methods/projection_dbath_serial.hpp"]}
{"id": "C92", "title": "The dispersive correction solves the weak form of its equation", "statement": "The unknowns and traces the dispersive correction computes are the solution of the weak form of (1 + alpha T) w = R, with w2 = h^3 div(w / h) as auxiliary unknown, equal fluxes at interfaces, no flow through land and shore, w2 = 0 at open boundaries. A polynomial flow in the spaces of the elements with these boundary conditions is a solution of the discrete equations with R = (1 + alpha T)(h v).", "quantifier": "all meshes without levees, states, wet/dry patterns, degrees, values of alpha and the stabilization; consistency: all wet, exact rules, fields that fit in the element spaces", "why_tests_cant": "A wrong factor in one of the thirteen kernel matrices changes the dispersion slightly; tests with a known solution would have to vary the bed, and no test of this program does.", "anchors": ["source/problem/Green-Naghdi/discretization_EHDG/kernels_processor/ehdg_gn_proc_volume.hpp: local_dc_volume_kernel", "source/problem/Green-Naghdi/discretization_EHDG/kernels_processor/ehdg_gn_proc_edge_intface.hpp", "source/problem/Green-Naghdi/discretization_EHDG/kernels_processor/ehdg_gn_proc_edge_bound.hpp", "source/problem/Green-Naghdi/discretization_EHDG/interface_specializations/ehdg_gn_is_internal.hpp"]}
{"id": "C93", "title": "The dispersive correction leaves levels, water, lakes at rest and uniform streams alone", "statement": "The stages of the dispersive correction change discharges only: the level of every element is the same before and after. A step (shallow water, correction, shallow water) keeps the water of a closed basin unless an element is emptied by drying. Over any bed a lake at rest stays at rest, and a uniform stream over a flat bed stays uniform.", "quantifier": "all meshes, tableaux whose rows sum up to one, time steps, states, wet/dry patterns, restrictions of the correction to some elements; rest and stream: rules exact for the degree", "why_tests_cant": "Water is lost in the last digits first; a test would need many steps and a mesh where the correction is active to see it.", "anchors": ["source/problem/Green-Naghdi/discretization_EHDG/kernels_processor/ehdg_gn_proc_serial_step.hpp: step_serial, dispersive_correction_serial", "source/problem/Green-Naghdi/discretization_EHDG/kernels_processor/ehdg_gn_proc_volume.hpp: dispersive_correction_kernel"]}
{"id": "C94", "title": "The system of the dispersive correction is regular", "statement": "With any right-hand side the equations of the dispersive correction have exactly one solution; its square integral is at most its product with the source. In particular the correction does not fail when the linear algebra libraries handle regular matrices.", "quantifier": "all meshes, states with wet elements, boundary conditions, interface types", "why_tests_cant": "A singular matrix shows up as a large or a nan solution only for the meshes that were tried; no test has a levee in a Green-Naghdi run.", "anchors": ["source/problem/Green-Naghdi/discretization_EHDG/kernels_processor/ehdg_gn_proc_serial_sol_glob_prob.hpp", "source/problem/Green-Naghdi/discretization_EHDG/kernels_processor/ehdg_gn_proc_edge_intface.hpp", "source/problem/Green-Naghdi/discretization_EHDG/interface_specializations/ehdg_gn_is_levee.hpp"]}
{"id": "C95", "title": "The global problem of the dispersive correction on several ranks is that of the whole mesh", "statement": "The ranks together number every edge of the mesh at a wet element exactly once, without gaps, both sides of a cut edge with the same number; the local numbers address the received part of the solution. What they assemble, solve and substitute back is a solution of the equations of the whole mesh, so equal to the one of a serial run if the equations determine it.", "quantifier": "all partitions into ranks and submeshes, wet/dry patterns, former numberings, matrices, exact solvers", "why_tests_cant": "A number assigned twice or a neighbour's number not received changes the solution near one cut edge only, and only for some wet/dry patterns on some partitions.", "anchors": ["source/problem/Green-Naghdi/discretization_EHDG/kernels_processor/ehdg_gn_proc_ompi_sol_glob_prob.hpp: ompi_solve_global_dc_problem, reset_PETSC_solver", "source/problem/Green-Naghdi/discretization_EHDG/kernels_preprocessor/ehdg_gn_pre_init_global_prob.hpp: initialize_global_dc_problem_parallel_*", "source/problem/Green-Naghdi/discretization_EHDG/kernels_preprocessor/ehdg_gn_pre_ompi.hpp: preprocessor_ompi"]}
{"id": "C96", "title": "The derivatives of the dispersive correction do not depend on the partition", "statement": "On several ranks and submeshes the projected derivatives of level, velocity and bathymetry up to third order, with the averages of the received values of the neighbour at distributed boundaries, are those of the whole mesh.", "quantifier": "all meshes, partitions, states, degrees and rows of values", "why_tests_cant": "A neighbour's value read in the wrong order or not averaged changes derivatives at cut edges only, a loss of accuracy there that no regression test against stored results of a serial run sees.", "anchors": ["source/problem/Green-Naghdi/discretization_EHDG/kernels_processor/grad_methods/projection_derivatives_ompi.hpp: compute_derivatives_ompi"]}
{"id": "C97", "title": "A stage of the dispersive correction on several ranks computes what it computes on one", "statement": "With the edges of the ranks in the order of localities and submeshes, every block of the system on several ranks is that of the whole mesh at wet elements, the halves of the blocks of a cut edge add up, and the state after any number of stages is the state of the serial run, if both come to their end and the equations determine the correction. At constant depth over a flat bed they do, and several ranks come to their end whenever one does.", "quantifier": "all meshes without levees on cut edges, partitions, wet/dry patterns, states, numbers of stages, exact libraries", "why_tests_cant": "A serial test never runs the distributed kernels; a parallel one with few partitions compares rounded results, so that a half block counted twice at a dry neighbour goes unnoticed.", "anchors": ["source/problem/Green-Naghdi/discretization_EHDG/kernels_processor/ehdg_gn_proc_ompi_step.hpp: dispersive_correction_ompi", "source/problem/Green-Naghdi/discretization_EHDG/kernels_processor/ehdg_gn_proc_edge_dbound.hpp: local_dc_edge_distributed_kernel, global_dc_edge_distributed_kernel", "source/problem/Green-Naghdi/discretization_EHDG/dist_boundary_conditions/ehdg_gn_dbc_distributed.hpp: ComputeGlobalKernelsDC"]}
{"id": "C98", "title": "The explicit hybridized scheme on several ranks computes what it computes on one", "statement": "With the exchange of bathymetry at the start and of the states at the Gauss points in every stage, the right-hand side of the explicit hybridized scheme on any partition is that of the whole mesh, and so are the states after any number of stages: both sides of a cut edge compute the same trace and the fluxes the interface would have had.", "quantifier": "all meshes without levees on cut edges, partitions, wet/dry patterns, states, degrees, bathymetries which may jump across the edge, numbers of stages", "why_tests_cant": "The values of the neighbour are read in reversed order from a buffer shared by all edges of a rank pair; a wrong offset or orientation gives a plausible solution with errors along the cuts only.", "anchors": ["source/problem/SWE/discretization_EHDG/kernels_processor/ehdg_swe_proc_ompi_step.hpp: stage_ompi", "source/problem/SWE/discretization_EHDG/kernels_processor/ehdg_swe_proc_dbound.hpp: global_distributed_boundary_kernel, local_distributed_boundary_kernel", "source/problem/SWE/discretization_EHDG/dist_boundary_conditions/ehdg_swe_dbc_distributed.hpp: ComputeNumericalFlux"]}
{"id": "C99", "title": "A step of the Green-Naghdi program on several ranks computes what it computes on one", "statement": "The steps of the parallel program - stages of the shallow water equations, stages of the dispersive correction, stages of the shallow water equations - have the results of the steps of the serial program, with wetting and drying, slope limiting and renumbering of the wet edges; in a uniform stream over a flat bed the parallel program comes to the end of its step and leaves the stream as it is.", "quantifier": "all meshes without levees on cut edges, partitions, states, numbers of stages and steps, if both programs come to their end and the equations determine the correction", "why_tests_cant": "The three parts exchange different data through the same buffers and the numbering of the global problem changes with the wet elements; an error in one part changes the others in ways a comparison of rounded results accepts.", "anchors": ["source/problem/Green-Naghdi/discretization_EHDG/kernels_processor/ehdg_gn_proc_ompi_step.hpp: step_ompi"]}
{"id": "C100", "title": "The global problem of the implicit scheme on several ranks is that of the whole mesh", "statement": "The ranks give every edge of the whole mesh its own block of consecutive numbers, the two sides of a cut edge the same one, without gaps or overlaps; matrix and right-hand side assembled by all ranks together are those of the condensed system of the whole mesh up to this numbering; the changes of elements and traces taken from the solution solve the linear system of the whole mesh, agree on both sides of a cut edge, and are those of the serial program if that system has one solution; the norm that decides convergence is the same.", "quantifier": "all meshes, partitions into ranks and submeshes (also empty ones), degrees which may vary, blocks, solvers that solve and inverses that are inverses", "why_tests_cant": "The numbers are made from two nested exclusive scans and a message that carries the first number as a double; an overlap or gap shows only as a singular or wrong matrix in a sparse library and only for certain partitions.", "anchors": ["source/problem/SWE/discretization_IHDG/kernels_preprocessor/ihdg_swe_pre_ompi.hpp: preprocessor_ompi", "source/problem/SWE/discretization_IHDG/kernels_preprocessor/ihdg_swe_pre_init_global_prob.hpp: initialize_global_problem_parallel_pre_send, initialize_global_problem_parallel_finalize_pre_send, initialize_global_problem_parallel_post_receive", "source/problem/SWE/discretization_IHDG/kernels_processor/ihdg_swe_proc_ompi_sol_glob_prob.hpp: ompi_solve_global_problem"]}
{"id": "C101", "title": "The implicit scheme on several ranks computes what it computes on one", "statement": "Messages, initial traces, kernels of cut edges and the Newton iteration of several ranks give, where the linearized equations have one solution, the states and traces of the serial program, with the same number of iterations, and fail exactly where it fails; both sides of a cut edge always hold the same trace.", "quantifier": "all meshes, partitions into ranks and submeshes, states, times and ramps, numbers of steps; cut edges with equal degrees on both sides", "why_tests_cant": "Both sides of a cut edge compute half of its equations in opposite orders of the Gauss points and with the basis turned on one side; a wrong order is invisible on symmetric data and for constant states.", "anchors": ["source/problem/SWE/discretization_IHDG/kernels_preprocessor/ihdg_swe_pre_init_global_prob.hpp: initialize_global_problem_parallel_finalize_pre_send, initialize_global_problem_parallel_post_receive", "source/problem/SWE/discretization_IHDG/kernels_processor/ihdg_swe_proc_edge_dbound.hpp: local_edge_distributed_kernel, global_edge_distributed_kernel", "source/problem/SWE/discretization_IHDG/kernels_processor/ihdg_swe_proc_dbound.hpp: local_distributed_boundary_kernel", "source/problem/SWE/discretization_IHDG/dist_boundary_conditions/ihdg_swe_dbc_distributed.hpp: Distributed", "source/problem/SWE/discretization_IHDG/kernels_processor/ihdg_swe_proc_ompi_step.hpp: stage_ompi"]}
{"id": "C102", "title": "The linear system of the implicit scheme is regular in still water", "statement": "At a state of still water of constant depth in a closed basin, the linear system of a Newton step has exactly one solution, the local blocks that static condensation inverts are regular, the Newton step succeeds, and a lake at rest over a flat bed is kept by any number of steps which all succeed.", "quantifier": "all meshes of positively oriented triangles with interfaces and land boundaries, degrees which may vary, depths, time steps, right-hand sides and old states; exact integration rules and solvers", "why_tests_cant": "Regularity is a property of a matrix of all unknowns: a test inverts one matrix for one mesh and one time step, in floating point, and cannot tell a singular matrix from an ill-conditioned one.", "anchors": ["source/problem/SWE/discretization_IHDG/kernels_processor/ihdg_swe_proc_volume.hpp: local_volume_kernel", "source/problem/SWE/discretization_IHDG/kernels_processor/ihdg_swe_proc_edge_intface.hpp: local_edge_interface_kernel, global_edge_interface_kernel", "source/problem/SWE/discretization_IHDG/boundary_conditions/ihdg_swe_bc_land.hpp: Land", "source/problem/SWE/discretization_IHDG/kernels_processor/ihdg_swe_proc_serial_sol_glob_prob.hpp: serial_solve_global_problem"]}
{"id": "C103", "title": "Derivatives by Green-Gauss and by least squares are consistent", "statement": "Green-Gauss gives the mean of the derivative over the element, whatever the neighbours hold; least squares gives the slope of an affine field and its matrix exists whenever two neighbours are not in one direction; each reconstruction keeps constants, those by least squares and interpolation keep affine functions in inner elements, the one by averages at nodes is the mean over the elements of the node and continuous across edges. For affine fields every choice of method and reconstruction gives exact first derivatives and zero second and third ones.", "quantifier": "all meshes of positively oriented triangles, degrees at least 1 which may vary, fields that are polynomials in each element; exact integration rules", "why_tests_cant": "The methods are compile-time alternatives that the default build never runs; an index or a sign of one direction is invisible on fields that depend on the other coordinate only.", "anchors": ["source/problem/Green-Naghdi/discretization_EHDG/kernels_processor/grad_methods/greengauss_derivatives_serial.hpp: compute_dze_gg, compute_du_gg, compute_ddu_gg", "source/problem/Green-Naghdi/discretization_EHDG/kernels_processor/grad_methods/leastsquares_derivatives_serial.hpp: compute_dze_ls, compute_du_ls, compute_ddu_ls", "source/problem/Green-Naghdi/discretization_EHDG/kernels_processor/grad_methods/recon_avg_derivatives.hpp: reconstruct_dze", "source/problem/Green-Naghdi/discretization_EHDG/kernels_processor/grad_methods/recon_int_derivatives.hpp: reconstruct_dze", "source/problem/Green-Naghdi/discretization_EHDG/kernels_processor/grad_methods/recon_ls_derivatives.hpp: reconstruct_dze", "source/problem/Green-Naghdi/discretization_EHDG/kernels_preprocessor/grad_methods/greengauss_dbath_serial.hpp: compute_dbath_gg, compute_ddbath_gg, compute_dddbath_gg", "source/problem/Green-Naghdi/problem_preprocessor/gn_pre_init_data.hpp: initialize_data_serial"]}
{"id": "C104", "title": "Derivatives by Green-Gauss and least squares on several ranks are those of the serial program", "statement": "In every stage the kernels of the dispersive correction on several ranks read the derivatives of level, velocity and bathymetry that the serial program computes from the same state, whatever method and reconstruction was chosen when the program was built, and the preprocessor on several ranks obtains the coefficients that the serial one obtains.", "quantifier": "all meshes and all their partitions, all states and stages, all choices of method and reconstruction", "why_tests_cant": "The parallel variants are compile-time alternatives; a wrong slot of the array of states shows in later stages only, and values at the cuts differ by what looks like a discretization error.", "anchors": ["source/problem/Green-Naghdi/discretization_EHDG/kernels_processor/grad_methods/greengauss_derivatives_ompi.hpp: compute_derivatives_ompi", "source/problem/Green-Naghdi/discretization_EHDG/kernels_processor/grad_methods/leastsquares_derivatives_ompi.hpp: compute_derivatives_ompi", "source/problem/Green-Naghdi/discretization_EHDG/kernels_processor/grad_methods/recon_avg_derivatives_ompi.hpp: reconstruct_dzedu, reconstruct_ddu", "source/problem/Green-Naghdi/discretization_EHDG/kernels_processor/grad_methods/recon_int_derivatives.hpp: reconstruct_dze", "source/problem/Green-Naghdi/discretization_EHDG/kernels_processor/grad_methods/recon_ls_derivatives.hpp: reconstruct_dze", "source/problem/Green-Naghdi/discretization_EHDG/kernels_preprocessor/grad_methods/greengauss_dbath_ompi.hpp: compute_bathymetry_derivatives_ompi", "source/problem/Green-Naghdi/problem_preprocessor/gn_pre_init_data.hpp: initialize_data_parallel_pre_send, initialize_data_parallel_post_receive"]}
{"id": "C105", "title": "Initial data represent the input", "statement": "Before the first step the bathymetry of each element of degree at least one is the linear interpolant of the values at its nodes, so it is continuous across interfaces and has the right slopes; a uniform initial condition is represented exactly; an initial function is represented exactly if it is a polynomial of the degree of the elements; both sides of an interface have the projection factor of their common position; an element is wet if and only if all its nodes are deeper than the minimum depth; and a lake given by a level and the depths at the nodes stays at rest in the whole run.", "quantifier": "all meshes without degenerate triangles, all depths at the nodes, all degrees from one, all initial conditions, with and without wetting and drying", "why_tests_cant": "Tests compare with stored output of a few meshes; an error in the order of nodes or of Gauss points of the other side disappears on symmetric or flat cases.", "anchors": ["source/problem/SWE/problem_preprocessor/swe_pre_init_data.hpp: initialize_data_serial", "source/problem/SWE/problem_preprocessor/swe_pre_preprocess_mesh.hpp: preprocess_mesh_data", "source/geometry/element.hpp: L2ProjectionF, L2ProjectionNode", "source/shape/shapes_2D/shape_straighttriangle.cpp: StraightTriangle"]}
{"id": "C106", "title": "Weights of the partitioner follow the wet elements of the start", "statement": "The partitioner gives an element the weight of a wet one if and only if the program starts with this element wet.", "quantifier": "all meshes, all types of initial conditions, all minimum depths, spherical or Cartesian coordinates", "why_tests_cant": "A wrong weight changes only the balance of work, which no test measures.", "anchors": ["partitioner/problem/swe_partitioner_inputs.cpp: SWE::PartitionerInputs::PartitionerInputs", "source/problem/SWE/problem_preprocessor/swe_pre_init_data.hpp: initialize_data_serial"]}
{"id": "C107", "title": "From the mesh file to a run", "statement": "The serial program gets to its first step from every well-formed mesh file with the data its open boundaries need, and then has one element per element of the file with the nodes of the file, every face of every element in exactly one interface or boundary, the two sides of an interface on the same edge, and on each boundary the condition of its type in the file with the data of its own nodes; so land all around gives a closed basin, and a lake with a uniform level over the bathymetry of the file stays at rest in the whole run, in particular on every rectangle meshed by the generator.", "quantifier": "all conforming mesh files with counterclockwise elements (as the format demands), boundaries of types land, tide, flow and function, all iteration orders of hash maps, all degrees from one, all Runge-Kutta schemes of the program", "why_tests_cant": "The hand-over between reading, pairing of edges, boundary creation and the kernels is tested only for a few meshes; a wrong side or order shows only on asymmetric meshes.", "anchors": ["source/preprocessor/mesh_metadata.cpp: MeshMetaData", "source/preprocessor/initialize_mesh.hpp: initialize_mesh_interfaces_boundaries", "source/problem/SWE/problem_preprocessor/swe_pre_create_bound.hpp: create_boundaries", "source/problem/SWE/problem_preprocessor/swe_pre_init_data.hpp: initialize_data_serial", "source/simulation/serial/simulation.hpp: Simulation"]}
{"id": "C108", "title": "Spherical coordinates: equations solved", "statement": "With mesh coordinates in longitude and latitude and the spherical projection on, the program solves the shallow water equations on the sphere: the projection is invertible and keeps the orientation of elements, the factor at a point is cos of the reference latitude over cos of the latitude, and the divergence that the kernels discretise is the divergence on the sphere, so that a stream is steady only if its divergence on the sphere vanishes.", "quantifier": "all projections with positive radius and reference latitude between the poles, all points, fields and meshes", "why_tests_cant": "Runs in spherical coordinates are compared with earlier runs only; the terms of the equations on the sphere are not checked anywhere.", "anchors": ["source/problem/SWE/problem_preprocessor/swe_pre_preprocess_mesh.hpp: preprocess_mesh", "source/problem/SWE/problem_preprocessor/swe_pre_init_data.hpp: initialize_data_serial", "source/problem/SWE/discretization_RKDG/kernels_processor/rkdg_swe_proc_volume.hpp: volume_kernel"]}
{"id": "C109", "title": "Lake at rest in spherical coordinates", "statement": "With the spherical projection on, water without discharge and with a uniform level between land boundaries stays at rest, at whatever level, from the mesh file in longitude and latitude to the end of the run.", "quantifier": "all mesh files with counterclockwise elements, all bathymetries, levels, radii, reference points and degrees", "why_tests_cant": "The projection factor enters the volume and face terms in different places; whether they balance depends on level, latitude and mesh.", "anchors": ["source/problem/SWE/discretization_RKDG/numerical_fluxes/rkdg_swe_LLF_flux.hpp: LLF_flux", "source/problem/SWE/discretization_RKDG/kernels_processor/rkdg_swe_proc_volume.hpp: volume_kernel", "source/problem/SWE/discretization_RKDG/kernels_processor/rkdg_swe_proc_source.hpp: source_kernel"]}
{"id": "C110", "title": "Output files are pictures of the state", "statement": "The VTK and VTU files of an output step can be read by a program that follows the file formats, and what it reads shows the state: the numbers of points and cells in the headings agree with what follows, each element of the mesh is divided into triangles of equal size whose corners are at the right place with level, discharge, bathymetry and speed of the element there, and each triangle has the values at its centre, the number of its element and the flags.", "quantifier": "all meshes, degrees, states, subdivisions and printers of numbers; the coordinates in the file tell neighbouring nodes apart", "why_tests_cant": "The test suite does not write output files; unreadable or wrong files appear for particular states (depth zero) and coordinates (far from the origin).", "anchors": ["source/simulation/writer.hpp: InitializeMeshGeometryVTK", "source/simulation/writer.hpp: InitializeMeshGeometryVTU", "source/problem/SWE/problem_postprocessor/swe_post_write_vtk.hpp: write_VTK_data", "source/problem/SWE/problem_postprocessor/swe_post_write_vtu.hpp: write_VTU_data"]}
{"id": "C111", "title": "Modal files are the history of the coefficients", "statement": "After any step of a run the modal file of a variable has exactly one record for each output step so far, in order, with the time and all the coefficients of all elements at that step; nothing of an earlier run remains.", "quantifier": "all runs, output frequencies, meshes with mixed degrees, and earlier contents of the file", "why_tests_cant": "Depends on the whole sequence of calls over a run and on what was in the directory before.", "anchors": ["source/problem/SWE/problem_postprocessor/swe_post_write_modal.hpp: write_modal_data", "source/simulation/writer.hpp: WriteOutput"]}
{"id": "C112", "title": "Order of traversal and choice of sides are immaterial", "statement": "The result of a run does not depend on the order in which elements, interfaces and boundaries are stored and visited, nor on which of the two elements at an interface is the interior one: with the same numbers a run on the mesh in another order, some interfaces seen from the other side, succeeds if and only if the first does, with the same result.", "quantifier": "all meshes with continuous bathymetry, all orders and choices, mixed degrees, all states, with and without wetting and drying, limiter, weirs and forcing, any number of stages; exact arithmetic", "why_tests_cant": "The order is that of hash tables and of the mesh file; tests use one file and one library.", "anchors": ["source/geometry/mesh.hpp: CallForEachElement", "source/geometry/mesh.hpp: CallForEachInterface", "source/preprocessor/initialize_mesh.hpp: initialize_mesh_interfaces_boundaries", "source/problem/SWE/discretization_RKDG/kernels_processor/rkdg_swe_proc_intface.hpp: interface_kernel"]}
{"id": "C113", "title": "Turning the mesh turns the result", "statement": "The equations have no preferred direction, and neither has the scheme without slope limiting: if the mesh is turned by any angle and shifted, the initial discharges and the given functions of time and place with it, then a run on it gives the same levels and wet flags as before and the discharges turned; it fails if and only if the run before fails, in the same way.", "quantifier": "all rotations and shifts, meshes, mixed degrees, states, boundary conditions, weirs, sources, with and without wetting and drying, any number of stages; exact arithmetic, Cartesian coordinates", "why_tests_cant": "A wrong sign or an exchanged component in a flux, a boundary condition, the normal or the derivatives can be invisible for flows along an axis, which tests prefer.", "anchors": ["source/problem/SWE/discretization_RKDG/numerical_fluxes/rkdg_swe_LLF_flux.hpp: LLF_flux", "source/problem/SWE/problem_flux/swe_flux.hpp: get_F", "source/problem/SWE/problem_source/swe_source.hpp: get_source", "source/shape/shapes_2D/shape_straighttriangle.cpp: GetSurfaceNormal"]}
{"id": "C114", "title": "The reported error is the norm of the error", "statement": "The number the program prints after `L2 error:` is the norm of the difference between the state and the true solution over the mesh, and it is the same whether the mesh is run by the serial program or distributed over ranks and submeshes. In particular it is a number.", "quantifier": "all meshes, degrees up to ten, states, true solutions, partitions and orders of the reduction", "why_tests_cant": "Convergence tests compare this number with itself under refinement; a rule that does not integrate squares, or that misses a submesh, spoils it by a factor nobody knows, and the correctness script compares builds, which share the error.", "anchors": ["source/geometry/element.hpp: ComputeResidualL2", "source/simulation/serial/simulation.hpp: ComputeL2Residual", "source/simulation/ompi/simulation_ompi.hpp: ComputeL2Residual", "source/problem/SWE/problem_postprocessor/swe_post_comp_res_l2.hpp: compute_residual_L2"]}
{"id": "C115", "title": "The water in the domain changes by what boundaries and sources bring", "statement": "Over any number of time steps of the RKDG scheme the water in the domain changes by the time step times a weighted mean, over the stages, of the rate at which open boundaries and the function source bring water; the weights depend on the scheme only, are not negative and sum to one within the rounding of its table. Interfaces, land, bottom slope, friction, limiting, and wetting and drying that empties no element, make and lose no water.", "quantifier": "all meshes with ordinary interfaces, boundary conditions of any kind, forcing, mixed degrees, states, wet flags, the schemes whose rows sum to one exactly; exact arithmetic, Cartesian coordinates", "why_tests_cant": "A budget can be checked by a test only for one mesh and one forcing, and errors in single edges vanish in the total; a lost interface term is invisible in a basin at rest.", "anchors": ["source/problem/SWE/discretization_RKDG/kernels_processor/rkdg_swe_proc_serial_step.hpp: stage_serial", "source/problem/SWE/discretization_RKDG/kernels_processor/rkdg_swe_proc_bound.hpp: boundary_kernel", "source/problem/SWE/discretization_RKDG/kernels_processor/rkdg_swe_proc_source.hpp: source_kernel", "source/simulation/stepper/explicit_ssp_rk_stepper.hpp: UpdateState"]}
{"id": "C116", "title": "A flow boundary passes the prescribed discharge", "statement": "Through a boundary of type flow there passes per unit of width and time the normal discharge given in the input file, whatever the state inside.", "quantifier": "all states, normals, constituents, times and ramps", "why_tests_cant": "A river that brings the wrong amount of water gives plausible levels; tests with steady flow start from the steady state, where the two agree.", "anchors": ["source/problem/SWE/discretization_RKDG/boundary_conditions/rkdg_swe_bc_flow.hpp: ComputeFlux", "source/problem/SWE/discretization_RKDG/numerical_fluxes/rkdg_swe_LLF_flux.hpp: LLF_flux"]}
{"id": "C117", "title": "The result does not depend on the units", "statement": "If horizontal lengths, heights and times of the input are expressed in other units, with gravity, friction coefficients, forcing and the drying depth converted accordingly, an RKDG run of any length gives the same result converted, the same wet flags, and fails in the same cases.", "quantifier": "all meshes, orders, numbers of stages, boundary conditions, weirs, friction laws, with or without wetting and drying; exact arithmetic; square and cube root homogeneous; without the slope limiter", "why_tests_cant": "A term with the wrong dimension is invisible in tests in which lengths and times are of order one; converting an input completely for a test takes the knowledge of every constant in the program.", "anchors": ["source/problem/SWE/discretization_RKDG/kernels_processor/rkdg_swe_proc_serial_step.hpp: stage_serial", "source/problem/SWE/problem_source/swe_source.hpp: get_source", "source/problem/SWE/discretization_RKDG/interface_specializations/rkdg_swe_is_internal.hpp: ComputeFlux", "source/problem/SWE/discretization_RKDG/interface_specializations/rkdg_swe_is_levee.hpp: ComputeFlux", "source/problem/SWE/problem_postprocessor/swe_post_wet_dry.hpp: wetting_drying_kernel"]}
{"id": "C118", "title": "The computed rate of change is that of the equations; steady flows stay", "statement": "If level, velocity and bottom are continuous and polynomial in each element such that the fluxes have at most one degree more than the element, and the boundaries are given by the flow, then the right hand side of a stage, tested with each basis function, is the quadrature of the rate of change that the shallow water equations give; if that rate is in the space of the element, its coefficients are computed. In particular a steady flow with moving water, such as uniform flow down a slope balanced by friction, is left unchanged by any number of stages.", "quantifier": "all meshes of counterclockwise triangles, orders, polynomial flows of positive depth, boundary kinds, source terms in use, tableaux, numbers of stages, with or without wetting and drying in deep water; exact quadrature and arithmetic", "why_tests_cant": "Manufactured solutions tested on a grid show a small error that cannot be told from a small error of an equation; a sign error or missing term that vanishes at rest and in uniform flow over a flat bottom passes.", "anchors": ["source/problem/SWE/discretization_RKDG/kernels_processor/rkdg_swe_proc_volume.hpp: volume_kernel", "source/problem/SWE/discretization_RKDG/kernels_processor/rkdg_swe_proc_source.hpp: source_kernel", "source/problem/SWE/discretization_RKDG/kernels_processor/rkdg_swe_proc_intface.hpp: interface_kernel", "source/problem/SWE/discretization_RKDG/kernels_processor/rkdg_swe_proc_bound.hpp: boundary_kernel", "source/problem/SWE/problem_source/swe_source.hpp: get_source"]}
{"id": "C119", "title": "Domain of dependence", "statement": "After n stages of an explicit scheme the coefficients and the wet flag of an element depend only on elements within n faces of it, 2n faces if the slope limiter is on: if two runs agree there in state, geometry, bottom, order, faces, boundary conditions and parameters, they agree in that element, whatever differs farther away.", "quantifier": "all pairs of meshes and data, orders, tableaux, numbers of stages, boundary and interface kinds, with or without wetting and drying and limiter; RKDG discretization, and EHDG without levees and with the fluxes of open boundaries given", "why_tests_cant": "A wrong index or a shared buffer that lets an element read a distant one shows up only for particular meshes and numberings, usually as noise.", "anchors": ["source/problem/SWE/discretization_RKDG/kernels_processor/rkdg_swe_proc_serial_step.hpp: stage_serial", "source/problem/SWE/discretization_EHDG/kernels_processor/ehdg_swe_proc_serial_step.hpp: stage_serial", "source/problem/SWE/problem_slope_limiter/swe_CS_slope_limiter.hpp: slope_limiting_kernel", "source/simulation/stepper/explicit_ssp_rk_stepper.hpp: UpdateState"]}
{"id": "C120", "title": "Stage storage holds no memory; runs can be restarted", "statement": "At the start of a step the coefficients of the elements and the wet flags determine every later stage: what the slots of later stages, the increments, the right hand sides and the flux matrices of internal interfaces hold does not matter. A run that is interrupted after any number of steps and started anew from the state reached, with times continued, gives the same result.", "quantifier": "all meshes, tableaux, numbers of steps and stages, contents of the storage; RKDG discretization, and EHDG without levees", "why_tests_cant": "Tests start with storage that happens to be zero; use of a stale slot shows up only after the first step, or only in a restarted run.", "anchors": ["source/simulation/stepper/explicit_ssp_rk_stepper.hpp: UpdateState", "source/problem/SWE/discretization_RKDG/kernels_processor/rkdg_swe_proc_volume.hpp: volume_kernel", "source/problem/SWE/discretization_EHDG/interface_specializations/ehdg_swe_is_internal.hpp: ComputeNumericalFlux"]}
{"id": "C121", "title": "Explicit hybridized scheme computes the rate of the equations", "statement": "On a state that is a polynomial flow continuous across faces, with fluxes resolved by the degree, the hybridized explicit scheme computes the same right-hand side as the RKDG scheme, so that its rate of change is that of the shallow water equations; a steady flow of this kind is unchanged by any number of stages. At an open boundary where the imposed state is that of the flow, the Newton iteration keeps the trace of the flow and gives its fluxes, unless a characteristic speed vanishes.", "quantifier": "all conforming meshes, orders for which the rules are exact, flows, tableaux, numbers of stages; wetting and drying off or inactive", "why_tests_cant": "Runs show only that errors fall with refinement; a wrong mean of the bottom, normal or stabilization term which cancels on the chosen case is not seen.", "anchors": ["source/problem/SWE/discretization_EHDG/kernels_processor/ehdg_swe_proc_volume.hpp: local_volume_kernel", "source/problem/SWE/discretization_EHDG/interface_specializations/ehdg_swe_is_internal.hpp: ComputeNumericalFlux", "source/problem/SWE/discretization_EHDG/boundary_conditions/compute_bc_trace.hpp: compute_bc_trace"]}
{"id": "C122", "title": "Water balance of the explicit hybridized scheme", "statement": "Over any number of time steps of the hybridized explicit scheme the water in the domain changes by exactly the time step times the weighted sum over the stages of what the function source makes minus the mass flux stored at the open boundaries, integrated along them; interior faces and land contribute nothing, and the weights are those of the Runge-Kutta scheme, non-negative and of sum one.", "quantifier": "all meshes with ordinary interfaces, all boundary conditions and whatever fluxes they store, sources, times, exact tableaux, numbers of steps, with or without wetting and drying (no element emptied) and limiter", "why_tests_cant": "Tests with closed basins do not see the boundary terms; with open boundaries no reference value of the volume is available.", "anchors": ["source/problem/SWE/discretization_EHDG/kernels_processor/ehdg_swe_proc_bound.hpp: local_boundary_kernel", "source/problem/SWE/discretization_EHDG/kernels_processor/ehdg_swe_proc_intface.hpp: local_interface_kernel", "source/problem/SWE/discretization_EHDG/interface_specializations/ehdg_swe_is_internal.hpp: ComputeNumericalFlux"]}
{"id": "C123", "title": "Order and choice of sides do not matter in the explicit hybridized scheme", "statement": "A run of the hybridized explicit scheme gives the same result in whatever order elements, interfaces and boundaries are visited and whichever element is the interior one of an interface, even where the bathymetry jumps and where one element is dry; what the flux matrices of the interfaces held before does not matter.", "quantifier": "all meshes with ordinary interfaces, orders that may differ between elements, states, wet flags, tableaux, numbers of stages, with or without wetting and drying and limiter", "why_tests_cant": "The order of a mesh is an accident of its generator; tests do not permute it, and the loop that fills both flux matrices in place is asymmetric in its text.", "anchors": ["source/problem/SWE/discretization_EHDG/interface_specializations/ehdg_swe_is_internal.hpp: ComputeNumericalFlux", "source/problem/SWE/discretization_EHDG/kernels_processor/ehdg_swe_proc_intface.hpp: local_interface_kernel"]}
{"id": "C124", "title": "No reference outlives what it refers to", "statement": "While a simulation unit is built and whenever it is used afterwards, no reference is followed to an object that has moved or gone: elements point to the master element of their mesh, faces refer to the data of their own elements and to the buffers of their rank boundary, edges to the faces they were made for, and the persistent requests of the message library to the storage of the buffers.", "quantifier": "all meshes (elements, faces of any number of types, rank boundaries, sizes of buffers), all initial capacities and growth policies of vectors, any number of later stages", "why_tests_cant": "Whether a vector moves its contents depends on mesh size and library; a dangling reference often still reads the old values, so that a test passes.", "anchors": ["source/geometry/mesh.hpp: CreateElement, CreateInterface, CreateBoundary, CreateDistributedBoundary", "source/geometry/mesh_skeleton.hpp: CreateEdgeInterface", "source/preprocessor/initialize_mesh_skeleton.hpp: initialize_mesh_skeleton", "source/problem/SWE/problem_preprocessor/swe_pre_create_dbound.hpp: create_distributed_boundaries", "source/communication/ompi_communicator.cpp: InitializeCommunication"]}
{"id": "C125", "title": "A NaN ends the program before it is used or written", "statement": "Whenever the update of a stage gives a NaN coefficient of elevation or discharge, the program ends in that stage, before the value is used by another stage or written, and without access out of bounds on the way; a stage without NaN goes on.", "quantifier": "all meshes, polynomial orders of at least one, updates, schedules of stages, states with NaN anywhere, with or without wetting and drying", "why_tests_cant": "Tests run configurations that stay finite; comparisons with NaN are false, which sends the branches of the wetting and drying kernel, and its computation of a vertex number, where no finite state does.", "anchors": ["source/problem/SWE/problem_postprocessor/swe_post_scrutinize.hpp: scrutinize_solution", "source/problem/SWE/problem_postprocessor/swe_post_wet_dry.hpp: wetting_drying_kernel", "source/problem/SWE/discretization_RKDG/kernels_processor/rkdg_swe_proc_serial_step.hpp: stage_serial"]}
{"id": "C126", "title": "The explicit hybridized scheme does not depend on the orientation of the axes", "statement": "Turning and moving the mesh, with the vectors of the state, gives the turned state after any number of stages of the explicit hybridized scheme.", "quantifier": "all meshes, quadrature rules, states, tableaux, numbers of stages, rotations and translations, with given fluxes of open boundaries and levees turned too; without limiter", "why_tests_cant": "Tests use meshes along the axes; an error in one component of the stabilization or of the wall flux hides behind zero components of normals.", "anchors": ["source/problem/SWE/discretization_EHDG/kernels_processor/ehdg_swe_proc_intface.hpp", "source/problem/SWE/problem_stabilization_parameters/swe_stab_param_LF.hpp: get_tau_LF", "source/problem/SWE/discretization_EHDG/boundary_conditions/ehdg_swe_bc_land.hpp"]}
{"id": "C127", "title": "The manufactured solution solves the equations", "statement": "The elevation and discharge given as initial and true solution of the manufactured example satisfy, with the source terms of that example, the gravity of its input and the bed its test uses, the equations whose fluxes and sources the program computes, at every time and place.", "quantifier": "all times and points of the plane", "why_tests_cant": "The convergence test built on this example measures an error; a wrong term in the source function would show as a loss of convergence that is taken for an error of the scheme, or is too small to be seen.", "anchors": ["examples/swe_manufactured_solution/manufactured_swe_source_functions.hpp: source_q", "examples/swe_manufactured_solution/manufactured_swe_true_solution_functions.hpp: true_q", "scripts/correctness/test_swe_parallel_correctness.sh"]}
{"id": "C128", "title": "The parabolic bowl example starts an exact oscillation", "statement": "The initial data and the bed of the parabolic bowl example belong to an exact solution of the equations wherever there is water, which stays within the walls of the basin of the example for the duration of its run.", "quantifier": "all times of the run and points of the basin", "why_tests_cant": "The example is run and looked at; whether the exact shoreline stays in the basin is not checked by any run.", "anchors": ["examples/swe_parabolic_bowl/parabolic_bowl_initial_condition_functions.hpp: ic_q", "examples/swe_parabolic_bowl/parabolic_bowl_bathymetry.hpp: bathymetry_function"]}
{"id": "C129", "title": "The analytical solution of the dispersive example solves its equations", "statement": "The solitary wave given as initial and true solution of the Green-Naghdi example satisfies the dispersive equations the program solves, with the parameter alpha of the program.", "quantifier": "all times and points of the line", "why_tests_cant": "A run only shows an error which does not vanish on fine meshes, if anyone refines; which of the terms or constants is at fault it does not show.", "anchors": ["examples/gn_analytical_solution/analytical_gn_true_solution_functions.hpp: true_q", "source/problem/Green-Naghdi/gn_definitions.hpp: NDParameters::alpha", "source/problem/Green-Naghdi/discretization_EHDG/kernels_processor/ehdg_gn_proc_serial_step.hpp"]}
{"id": "C130", "title": "The correctness script accepts a parallel run only if its error is that of the serial run", "statement": "The comparison script ends with exit code 0 exactly if both outputs report an error and the two errors agree up to a hundred roundings.", "quantifier": "all outputs with errors printed in any format of a C++ stream", "why_tests_cant": "The script is the test; nothing tests it, and errors of the one mesh it is used with need no power of ten.", "anchors": ["scripts/correctness/compare_l2_errors.py", "source/simulation/serial/simulation.hpp: ComputeL2Residual", "source/simulation/ompi/simulation_ompi.hpp: ComputeL2Residual"]}
{"id": "C131", "title": "Every interleaving of ranks and threads ends with the result of the phases in order", "statement": "However the threads of all ranks are scheduled and whichever messages MPI buffers, a run never misuses a request or buffer, never blocks for ever, and always ends with the state obtained by letting all units do one phase after the other, each hearing what its neighbours packed in that phase; the stepper is only advanced while no thread of the rank works.", "quantifier": "all numbers of ranks, threads and units, all symmetric neighbourhoods, all schedules, all choices of MPI buffering, all numbers of steps and stages, with and without limiting and wetting, RKDG and EHDG", "why_tests_cant": "A test sees the schedules that happen on one machine with one MPI library; a wait in the wrong loop or a missing barrier may pass there for years.", "anchors": ["source/simulation/ompi/simulation_ompi_base.hpp", "source/simulation/ompi/simulation_ompi.hpp: Run", "source/problem/SWE/discretization_RKDG/kernels_processor/rkdg_swe_proc_ompi_step.hpp", "source/problem/SWE/discretization_EHDG/kernels_processor/ehdg_swe_proc_ompi_step.hpp", "source/problem/SWE/problem_slope_limiter/swe_CS_sl_ompi.hpp", "source/communication/ompi_communicator.cpp"]}
{"id": "C132", "title": "No two threads work on the same simulation unit at once", "statement": "At every moment of a threaded run, the next operations of two different threads concern different simulation units.", "quantifier": "all numbers of ranks, threads and units and all schedules, for the preprocessors and the steps of the schemes", "why_tests_cant": "A data race on elements which both threads resize to the same size shows only as a rare crash.", "anchors": ["source/problem/Green-Naghdi/discretization_EHDG/kernels_preprocessor/ehdg_gn_pre_ompi.hpp", "source/problem/SWE/discretization_EHDG/kernels_preprocessor/ehdg_swe_pre_ompi.hpp", "source/simulation/ompi/simulation_ompi.hpp: Run"]}
{"id": "C133", "title": "Every schedule of the threaded program ends with the serial solution", "statement": "However the threads of all ranks are scheduled and whichever messages MPI buffers: when the threaded program has ended on a partitioned mesh, the memory of every simulation unit holds, for the elements of the unit, the stages and the wet flags with which the serial program ends on the whole mesh.", "quantifier": "all partitions of all meshes, all numbers of ranks, threads and units, all schedules, all choices of MPI buffering, all numbers of steps and stages, with and without wetting and drying and slope limiting (RKDG)", "why_tests_cant": "A test compares a few partitions under the few schedules that happen on one machine.", "anchors": ["source/problem/SWE/discretization_RKDG/kernels_processor/rkdg_swe_proc_ompi_step.hpp", "source/problem/SWE/discretization_RKDG/kernels_processor/rkdg_swe_proc_serial_step.hpp", "source/problem/SWE/problem_slope_limiter/swe_CS_sl_ompi.hpp", "source/simulation/ompi/simulation_ompi.hpp: Run", "source/communication/ompi_communicator.cpp"]}
{"id": "C134", "title": "Every schedule of the threaded hybridized program ends with the serial solution", "statement": "However the threads of all ranks are scheduled and whichever messages MPI buffers: when the threaded explicit hybridized program has ended on a partitioned mesh, including the exchange of the bathymetry in the preprocessor, the memory of every simulation unit holds, for the elements of the unit, the stages and the wet flags with which the serial program ends on the whole mesh.", "quantifier": "all partitions of all meshes without levees at the cuts, all numbers of ranks, threads and units, all schedules, all choices of MPI buffering, all numbers of steps and stages, with and without wetting and drying and slope limiting (EHDG)", "why_tests_cant": "A test compares a few partitions under the few schedules that happen on one machine.", "anchors": ["source/problem/SWE/discretization_EHDG/kernels_processor/ehdg_swe_proc_ompi_step.hpp", "source/problem/SWE/discretization_EHDG/kernels_preprocessor/ehdg_swe_pre_init_global_prob.hpp", "source/problem/SWE/discretization_EHDG/kernels_processor/ehdg_swe_proc_serial_step.hpp", "source/simulation/ompi/simulation_ompi.hpp: Run", "source/communication/ompi_communicator.cpp"]}
{"id": "C135", "title": "Threaded runs conserve water and keep a lake at rest under every schedule", "statement": "At the end of every schedule of the threaded program on a partitioned mesh, the volumes held by all simulation units add up to the initial volume of a closed basin in which no element is emptied, and a lake at rest is still at rest in every unit.", "quantifier": "all partitions, all numbers of ranks, threads and units, all schedules and choices of MPI buffering, all numbers of steps, the Runge-Kutta schemes whose rows add up to one, RKDG and EHDG", "why_tests_cant": "Conservation is checked by hand in serial runs; a lost message under a rare schedule would change the volume without an error.", "anchors": ["source/problem/SWE/discretization_RKDG/kernels_processor/rkdg_swe_proc_ompi_step.hpp", "source/problem/SWE/discretization_EHDG/kernels_processor/ehdg_swe_proc_ompi_step.hpp", "source/simulation/ompi/simulation_ompi.hpp: Run", "source/simulation/stepper/explicit_ssp_rk_stepper.hpp"]}
{"id": "C136", "title": "All threads and ranks leave the Newton loop together, under every schedule", "statement": "In the threaded implicit program every thread of every rank performs the same number of Newton iterations, the master thread never reads units or writes the shared solution and convergence flag while another thread of its rank works on units or reads them, no schedule deadlocks, every schedule ends, and all end with the same units.", "quantifier": "all numbers of ranks and threads, all distributions of units, all kernels and linear solvers, all numbers of stages, all schedules", "why_tests_cant": "A rank that left the loop one iteration early would hang the others in a collective call, and a missing barrier would show up only under rare interleavings.", "anchors": ["source/problem/SWE/discretization_IHDG/kernels_processor/ihdg_swe_proc_ompi_step.hpp: stage_ompi", "source/problem/SWE/discretization_IHDG/kernels_processor/ihdg_swe_proc_ompi_sol_glob_prob.hpp: ompi_solve_global_problem", "source/problem/SWE/problem_data_structure/swe_global_data.hpp"]}
{"id": "C137", "title": "The threaded implicit program ends with the serial solution, under every schedule", "statement": "When the submeshes of all ranks run the implicit kernels on what is their own, each rank's master thread assembles the entries of its submeshes and all ranks solve the global system together, every schedule of the threads ends with every submesh holding, in its elements, the states of the serial implicit program on the whole mesh; a lake at rest over a flat bed stays at rest, and the scheme of order one keeps all the water of a closed basin.", "quantifier": "all partitions of all meshes into ranks and submeshes, all distributions of submeshes to threads, all numbers of steps, all schedules; where the linearized equations have one solution", "why_tests_cant": "It takes ranks, threads, two barriers per iteration, renumbered unknowns and a Newton loop at once; a test compares one schedule on one mesh within a tolerance.", "anchors": ["source/problem/SWE/discretization_IHDG/kernels_processor/ihdg_swe_proc_ompi_step.hpp: stage_ompi", "source/problem/SWE/discretization_IHDG/kernels_processor/ihdg_swe_proc_ompi_sol_glob_prob.hpp: ompi_solve_global_problem", "source/problem/SWE/discretization_IHDG/kernels_processor/ihdg_swe_proc_serial_step.hpp: stage_serial"]}
{"id": "C138", "title": "Every interleaving of the Green-Naghdi step gives the same result", "statement": "In the threaded Green-Naghdi program, whose step mixes messages between units with linear systems and nodal averages that the master threads of all ranks treat together, no schedule does anything undefined, lets two threads treat the same unit, deadlocks or reaches a collective operation with a message under way; every schedule ends after the same number of moves, with the memories that the stages, taken one after the other by all units together, would give.", "quantifier": "all numbers of ranks, threads and units, all neighbour relations, all kernels and solvers, all methods for the derivatives (projection, Green-Gauss, least squares; reconstruction from neighbours or averages at nodes), all numbers of stages and steps, all schedules, with and without buffering of messages", "why_tests_cant": "The number of interleavings is astronomical, and the method for the derivatives is fixed at compile time; a test runs one schedule of one configuration.", "anchors": ["source/problem/Green-Naghdi/discretization_EHDG/kernels_processor/ehdg_gn_proc_ompi_step.hpp: step_ompi, dispersive_correction_ompi", "source/problem/Green-Naghdi/discretization_EHDG/kernels_processor/ehdg_gn_proc_ompi_sol_glob_prob.hpp: ompi_solve_global_dc_problem", "source/problem/Green-Naghdi/discretization_EHDG/kernels_processor/grad_methods/recon_avg_derivatives_ompi.hpp: reconstruct_dzedu, reconstruct_ddu", "source/problem/Green-Naghdi/discretization_EHDG/kernels_processor/grad_methods/leastsquares_derivatives_ompi.hpp: compute_derivatives_ompi"]}
{"id": "C139", "title": "Every interleaving of the implicit step with its slope limiter gives the same result", "statement": "In the threaded implicit shallow-water program, whose stages repeat collective solves until the solution has converged or a hundred iterations are done, and then exchange messages for the slope limiter, no schedule does anything undefined, lets two threads treat the same unit, deadlocks or reaches a collective solve with a message under way; every schedule ends, with the memories that the stages, taken one after the other by all units together, would give, and with the stepper advanced once per stage.", "quantifier": "all numbers of ranks, threads and units, all neighbour relations, all kernels, all solvers and convergence decisions, with and without the slope limiter, all numbers of stages and steps, all schedules, with and without buffering of messages", "why_tests_cant": "The number of interleavings is astronomical, and how often the ranks meet depends on the data.", "anchors": ["source/problem/SWE/discretization_IHDG/kernels_processor/ihdg_swe_proc_ompi_step.hpp: step_ompi, stage_ompi", "source/problem/SWE/discretization_IHDG/kernels_processor/ihdg_swe_proc_ompi_sol_glob_prob.hpp: ompi_solve_global_problem"]}
