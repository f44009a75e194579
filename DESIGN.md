# Formal model of dgswemv2 — design

Source: `/repo` (UT-CHG/dgswemv2, pinned commit, C++). The model is in Lean 4 under `lean/Verif/`.

Layout

* `Verif/Model/*.lean` — definitions only; each cites file and lines in `/repo` that it models.
* `Verif/Lemmas/*.lean` — helper lemmas.
* `Verif/Props/*.lean` — the property theorems (names in `MANIFEST.json`), each with a concrete
  `example` (or a witness theorem) showing that its hypotheses are met by a non-trivial case.

## General modelling decisions

* `double` is modelled by an exact number: a generic (linearly ordered) field where that suffices, `ℚ` where
  tables are evaluated, `ℝ` where `sqrt`, `tanh`, `cos` or derivatives occur. Rounding, overflow, NaN and
  signed zeros are outside of the model. Decimal literals of coefficient tables are taken as the exact decimal.
* `uint` is `ℕ` unless the property is about wrap-around; then it is `ℕ` with an explicit bound or
  `BitVec`/`UInt`. Where the C++ code has undefined behaviour (division by zero, out-of-range index,
  empty iterator) the model returns a distinguished outcome (`none` / `Outcome.ub`), never a default value.
* Exceptions are `Except`/`Option` results that are distinct from undefined behaviour.
* `std::map` is a finite map with ordered iteration; `std::unordered_map` is an association list in
  arbitrary order, and the theorem proves the result does not depend on that order.
* Files are lists of tokens/lines/characters; printing a number and reading it back is assumed exact where
  so stated (for the raw-character boundary codes the byte-level behaviour of `>>` is modelled).
* METIS is an arbitrary function; MPI is a transport which copies the send buffer to the matching receive
  buffer (pairing by rank and tag is modelled); OpenMP is modelled by the index ranges each thread gets.

## Trusted base

* Lean 4.33.0 kernel; Mathlib 4.33.0 (definitions used in statements). Axioms used by the theorems:
  at most `propext`, `Classical.choice`, `Quot.sound`.
* Faithfulness of the model, i.e. the reading of the C++ code which is cited at each definition.
* Not modelled: floating-point rounding, linear-algebra back ends (Blaze/Eigen/PETSc), YAML/stream
  tokenisation beyond what is stated, real MPI/OpenMP scheduling, memory management.

## Plan per property

| id | what is modelled | how it is proved |
|----|------------------|------------------|
| C01 | stepper record, constructor and `++` | induction on the number of increments |
| C02 | all twelve tables as rational lists, constructor dispatch | case analysis over the finite table, lifted to all pairs |
| C03 | stage recursion in a real vector space | induction over stages; convexity |
| C04 | tables; Butcher form computed from Shu–Osher form | evaluation of order conditions on each table |
| C05 | `crk`/`drk` loops | negation by witness, plus partial theorem for the first stage and autonomous problems |
| C06 | array of states, `UpdateState`, swap | induction over stages against the abstract recurrence |
| C07 | ramp update on ℝ | induction; monotonicity of tanh |
| C08 | implicit and Strang steppers | induction |
| C09 | step count, writer schedule, names | arithmetic of ceil; filter over steps |
| C10 | thread range computation | arithmetic |
| C11 | byte predicates | exhaustive over the byte |
| C12 | key packing | arithmetic on shifted sums |
| C13 | edge dictionary and metadata constructor | invariant over the fold on element faces; permutation independence |
| C14 | `has_edge`, `get_ibtype`, `is_levee_end` | list characterisation |
| C15 | `get_internal_node_pair` | list lemmas |
| C16 | reader's accepted codes and `get_ibtype` | negation by witness (islands) + partial |
| C17 | token-level and character-level writer/reader of fort.14 with 15-digit numbers | round trip by induction; digits through `Decimal`; counterexamples |
| C18 | character-level writer/reader of element records with 15-digit numbers | round trip for non-whitespace codes and short coordinates (partial) + counterexamples |
| C19 | dbmd block reader | symmetry theorem |
| C20, C21 | submesh assembly over an arbitrary partition function | fold invariants |
| C22 | distributed interface writer | fold invariant; counterexample for double contact |
| C23 | rank/(locality, submesh) encoding, names | arithmetic; injectivity |
| C24 | CSR construction | list invariants |
| C25 | tag computation | arithmetic with 16-bit casts; collision witness |
| C26 | offsets, buffers, set/get | induction over boundary list |
| C27 | generator loops | slot bijection, orientation by algebra |
| C28–C30 | raw boundary maps, interface/boundary creation | fold invariants; counterexamples |
| C31–C34 | triangle geometry over an ordered field/ℝ | algebra |
| C35 | dof index arithmetic | arithmetic, exact integer square root |
| C36 | projection matrices | algebra |
| C37, C38 | Jacobi recurrence, Legendre/Dubiner basis | recurrence/integration theorems |
| C39 | singular-vertex sums | induction |
| C40, C41 | quadrature tables as rationals | kernel evaluation over the finite table |
| C42, C43 | LLF flux over ℝ | algebra; negation for sp ≠ 1 |
| C44 | distributed flux routine vs. internal interface | case analysis |
| C45, C46 | land and levee | algebra; negation for levee mass balance |
| C47 | Jacobians and eigenvectors | algebra, `HasDerivAt` |
| C48 | fluxes, sources at rest | algebra |
| C49 | `wetting_drying_kernel` | case analysis over branches |
| C50, C51 | slope limiter, trouble check | algebra; negation |
| C52, C53 | source terms | negation; algebra |
| C54 | meteo parser state machine | induction over stages |
| C55, C56 | settings ↔ YAML node, bcis token reader | round trip |
| C57 | one stage over a mesh of elements | finite sums |
| C58, C59 | utilities | algebra; induction |
| C60 | generator output, reader and metadata together | composition of the models |
| C61 | output tessellation | index arithmetic; algebra |
| C62 | tide and flow boundary values | algebra |
| C63 | stabilization matrix | algebra |
| C64 | weir formula | algebra, continuity |
| C65–C67 | limiter reconstruction, neighbour data, troubled area | algebra; list invariants |
| C68 | detector with messages | negation by witness + partial |
| C69 | source derivatives of the implicit scheme | `HasDerivAt`; negation |
| C70 | stages of all submeshes and ranks with messages | simulation of the serial run by induction over stages |
| C71 | input file constructor, partitioner rewriting | composition of round trips |
| C72 | all kernels, on a whole mesh | change of variables face by face, orthogonality of the basis |
| C73 | all kernels and the run | divergence theorem on the triangle for the rules; invariant of the run |
| C74, C75 | fluxes of the explicit hybridized discretization, in-place loops, messages | loop invariants; algebra |
| C76, C77 | its kernels and run | invariant of the run; comparison with the RKDG right-hand side |
| C78 | levees and projection in it | negation by witness |
| C79 | flatten, reshape, edge tables | index arithmetic; zeros of Legendre combinations |
| C80, C81 | Newton iteration for boundary traces | derivatives, eigenvectors, invertible tables; negation by kernel vector |
| C82 | numbering, assembly and back substitution of the implicit scheme | block elimination for arbitrary blocks |
| C83 | its element, edge and boundary kernels | derivatives on the whole mesh; one-sided derivatives of absolute values; negation at open boundaries |
| C84 | tide and flow forcing in it | algebra; irrationality of π |
| C85 | water in a closed basin under it | linearised weak form of a Newton step, tested with 1 |
| C86 | fixed points of its iteration | zero right-hand sides through the condensation |
| C87 | lake at rest and stream under it | comparison with the explicit right-hand side; negation with friction |
| C88 | elimination in the dispersive correction | block elimination, both directions; numbering as a fold |
| C89 | correction fails only with its solvers | negation: stale number of a dry edge; partial without dry edges |
| C90 | source of the dispersive correction | negation: sign of the bed slope in hx; exact defect; partial where it vanishes |
| C91 | derivatives of the dispersive correction | expansion in an orthogonal basis, Green's formula, faces cancel |
| C92 | dispersive correction solves its weak form | matrices applied to unknowns are integrals; equations of an edge hold at its Gauss points; integration by parts for consistency |
| C93 | correction leaves levels, water, rest, stream | invariant of the stages; zero source gives zero solution; derivatives of constants vanish |
| C94 | system of the correction regular | energy of the weak form at constant depth; regular blocks are eliminated, regular matrix is solved; zero rows at levees |
| C95 | dispersive correction on several ranks | numbers by prefix counts, offsets by partial sums; rows of all ranks add up to the rows of the whole mesh |
| C96 | derivatives on several ranks | sums over faces of submeshes are permutations of the sums of the mesh |
| C97 | dispersive correction on several ranks = on one | blocks written face by face; permutation of the writes; half blocks of a cut edge add up; C95 for the global problem, C94 for uniqueness |
| C98 | explicit hybridized scheme on several ranks = on one | the message decodes to the states of the neighbour at the reversed Gauss points; trace and flux are symmetric; sums as in C70 |
| C99 | Green-Naghdi step on several ranks = on one | composition of C98 and C97, with totality where the correction is determined and found |
| C100 | global problem of the implicit scheme on several ranks | the two scans number all edges once; the rows of the ranks add up to the rows of the condensed system of C82, numbered differently; back substitution reads its own part of the vector of the rank |
| C101 | implicit scheme on several ranks | both halves of a cut edge hold the trace of the interface; their kernels are the two halves of the interface's blocks; C100 for the linear problem; induction over iterations and steps |
| C102 | regular system in still water | multiply the homogeneous equations with (g dζ, dq): a positive square remains (energy), integration by parts by exact rules; lake at rest over a flat bed as corollary |
| C103 | Green-Gauss and least squares | closed form of the loops over faces (`ggWith_at`, `nbs_spec`); Green's formula on a triangle for polynomials; normal equations; affine fields by barycentres and midpoints |
| C104 | Green-Gauss and least squares on ranks | sums and assignments over the entities of all submeshes are permutations of those of the mesh; cut sides contribute once from each side; local numbers of nodes injective on each rank; slots of the array of states |
| C105 | initial data | projection of a polynomial is the polynomial (expansion in an orthogonal basis); linear interpolation on faces; one entry per Gauss point of the loop over an interface; then C48 and C49 |
| C106 | weights of the partitioner | conditions on the depths at the nodes on both sides; witnesses for default and function |
| C107 | from the mesh file to a run | C13, C14, C28, C105 and the data of boundaries joined in one function; its mesh satisfies the hypotheses of C48, C57 and C73; then the generator (C60) |
| C108 | spherical coordinates: equations solved | divergence on the sphere computed with derivatives of real functions and compared with the scaled derivatives of the kernels; a steady stream as witness against |
| C109 | lake at rest in spherical coordinates | at level zero no flux feels the factor, so C48 and C107 apply; at another level one element between 60 degrees south and north as witness against |
| C110 | output files are pictures of the state | readers of both formats written from the description of the formats; what they get from the words of the files is compared with the elements; a dry corner and six digits as witnesses against |
| C111 | modal files are the history of the coefficients | a reader of records; induction over the steps |
| C112 | order of traversal and choice of sides are immaterial | an interface seen from the other side has the same terms with sides exchanged; permuted sums; the fold of wetting and drying and the limiter from their own descriptions (C70); induction over stages |
| C113 | turning the mesh turns the result | motions of the plane act on triangles, states and given functions; each term of the right-hand side, wetting and drying and the stepper commute with them; the limiter does not (witness) |
| C114 | the reported error is the norm of the error | squares of polynomial differences are integrated by the rule of degree twenty up to its rounding (C41); sums over ranks are permutations of the sum over the mesh; witness for the negative weights |
| C115 | balance of water with open boundaries | C57 without closed boundaries: totals of the kernels, the stages of a step as a Shu-Osher sequence of waters, its Butcher form (C04) |
| C116 | a flow boundary passes the prescribed discharge | mass component of the flux; false, the mean with the inner discharge passes |
| C117 | units do not matter | one number per dimension (length, height, velocity); every kernel commutes with the conversion, by induction the run; false for tolerances without unit |
| C118 | computed rate = equations | polynomial flow per element; Green's formula turns the weak form into the quadrature of the rate; orthogonality gives the coefficients; steady flows by induction over stages |
| C119 | domain of dependence | two runs compared on the elements within a number of faces; each stage loses one face, the limiter one more |
| C120 | storage holds no memory | C119 with the whole mesh as neighbourhood; runs concatenated |
| C121 | rate of change of the EHDG scheme | on the flows of C118 each term of the hybridized scheme is that of RKDG |
| C122 | water balance of the EHDG scheme | as C115, for any right-hand side of which the rate of water is known |
| C123 | order and choice of sides, EHDG | as C112; the pair of fluxes of a face is symmetric, also with dry elements and jumps of the bed |
| C124 | lifetimes | memory of cells with addresses; machine whose instructions are the creating calls, vectors move when they grow; following a dead reference is undefined behaviour |
| C125 | NaN | doubles are numbers or NaN; the wetting and drying kernel once more with comparisons that are false for NaN, equal to the old model on numbers; scrutiny at the end of each stage |
| C126 | turning the mesh, explicit hybridized scheme | flux, stabilization, walls and traces commute with the rotation; then the stage, then runs |
| C127 | manufactured solution | all derivatives by the rules of analysis; fluxes and sources of the model as in the equations |
| C128 | parabolic bowl | the oscillation found from the initial data; its shoreline compared with the basin |
| C129 | solitary wave | a travelling wave satisfies the dispersive equations iff a polynomial in tanh times (alpha - 1) vanishes |
| C130 | comparison script | the regular expression as a function on characters; numbers as printed by streams |
| C131 | interleaving semantics of threads, barriers and MPI requests (`Schedule`) | invariant over reachable states: each unit is where its thread is in a lockstep run; progress by the thread furthest behind; then the lockstep run stage by stage |
| C132 | same | ownership of units; a schedule leading to the race |
| C133 | what one unit does in each phase with its own memory and the messages of its neighbours (`SweUnit`), put into `Schedule` | each unit agrees with the parallel run on its own elements, phase by phase; then C131 and the theorem that the parallel run is the serial run |
| C134 | the same for the explicit hybridized program, with the bathymetry received by the preprocessor in the memory (`EhdgUnit`) | as C133, with C98 in place of C70 |
| C135 | same as C133 and C134 | the invariants of the serial runs carried over to the units |
| C136 | rounds of kernels, barrier, master with a collective operation, barrier, kernels, decision (`Rounds`); the Newton loop as such rounds | the places of the threads determine the whole state (invariant); the thread with the fewest barriers reached can always go on; a rank deciding on its own blocks the others (`selfish_deadlock`) |
| C137 | kernels of one submesh on its own memory (`IhdgUnit`), put into the rounds of `Rounds` | kernels look at and write own elements only, so each fold over all submeshes restricts to the fold over one; the contributions of all submeshes make up the system; then C136 and C101 |
| C138 | texts of `Schedule` cut at the places where the masters of all ranks meet (`GnSchedule`) | between two places C131 applies; at a place no message is under way, so the next part begins as the first did; the number of moves left falls by one with each move; masters that hand in and come back one by one (`GnMeet`) simulate masters that meet in one move |
| C139 | texts of `Schedule` joined to a tree by places where the masters meet and decide (`IhdgSchedule`) | as C138; the tree is finite, so the moves left are bounded by the longer of the two ways |

## Modules

| module | source |
|--------|--------|
| `Stepper`, `Util` | `simulation/stepper`, `utilities`, `simulation/writer.hpp` (schedule), thread ranges |
| `Adcirc`, `MeshMeta`, `Text`, `Boundary` | `preprocessor/ADCIRC_reader`, `mesh_metadata` |
| `Partition`, `Csr`, `Comm`, `QuadMesh`, `Assemble` | partitioner, `communication`, mesh generator, `initialize_mesh` |
| `Geometry`, `Basis`, `Quadrature`, `Element`, `CodeNumerics` | `shape`, `geometry`, `basis`, `integration` |
| `SweFlux`, `SweJacobian`, `SweWetDry`, `SweLimiter`, `SweSource`, `SweMeteo` | `problem/SWE` kernels at a point or an element |
| `SweStage`, `SweParallel` | RKDG stage on a mesh, on submeshes with messages |
| `Yaml`, `SweInputs`, `InputFile`, `Bcis` | input parsing |
| `Ehdg`, `EhdgTrace` | `problem/SWE/discretization_EHDG` |
| `Condense`, `Ihdg` | `problem/SWE/discretization_IHDG`, serial program |
| `GnCondense` | `problem/Green-Naghdi`, global problem of the dispersive correction |
| `GnSource` | `problem/Green-Naghdi`, source and correction at a point |
| `GnDeriv` | `problem/Green-Naghdi/grad_methods`, derivatives by projection |
| `Gn` | `problem/Green-Naghdi/discretization_EHDG`, kernels, system and step of the dispersive correction |
| `GnParallel` | numbering and global problem of the dispersive correction on several ranks |
| `GnRanks` | derivatives, distributed kernels and stage of the dispersive correction on several ranks |
| `EhdgParallel` | messages, distributed kernels and stage of the explicit hybridized scheme on several ranks |
| `GnRun` | steps of the Green-Naghdi program, serial and parallel |
| `CondenseP` | numbering, assembly and back substitution of the implicit scheme on several ranks |
| `IhdgParallel` | messages, kernels of cut edges, iteration and steps of the implicit scheme on several ranks |
| `CondenseRegular`, `IhdgEnergy`, `IhdgEnergyCase`, `IhdgParallelCase` | (lemmas and properties only) uniqueness of the condensed system, energy at rest, lakes at rest |
| `GnGrad` | derivatives by Green-Gauss and least squares, reconstructions |
| `GnGradCase` | (property only) four triangles; the second derivatives of the bathymetry at cut edges |
| `GnGradRanks` | the same on several ranks, data before and after the messages, slots of the array of states |
| `GnGradRanksCase` | (property only) four triangles on two and four ranks; partitions that change the result |
| `SweInit` | initial data of the shallow water problem, weights of the partitioner |
| `SweInitCase` | (property only) a rectangle over an uneven bed; wrong weights; degree zero |
| `SweProgram` | all that the serial program does before its first step |
| `SweProgramCase` | (property only) generated meshes; a file with a clockwise element |
| `Sphere` | (property only) the projection, the divergence on the sphere, states that do not feel the factor |
| `SphereCase` | (property only) one large element on the unit sphere |
| `Output` | words of the VTK, VTU and modal files; readers |
| `OutputCase` | (property only) two triangles, six digits |
| `OutputModal` | (property only) the records of the modal files |
| `Order` | (property only) meshes in another order |
| `Rotate` | (property only) motions of the plane |
| `Residual` | `element.hpp: ComputeResidualL2`, `ComputeL2Residual` of both programs |
| `Balance` | (property only) balance of water, flow boundaries |
| `Units` | (property only) change of units |
| `LeveeMesh` | (property only) levees of the mesh made from the mesh file |
| `Consistency` | (property only) polynomial flows |
| `Local`, `LocalEhdg` | (property only) two runs that agree around an element |
| `EhdgFlow` | (property only) flows that are polynomials, hybridized scheme |
| `EhdgBalance` | (property only) balance of water of the hybridized scheme |
| `EhdgOrder` | (property only) reordered meshes, hybridized scheme |
| `Lifetime` | storage of masters, elements, faces, edges, rank boundaries, buffers, requests; `Mesh::Create…`, `MeshSkeleton::Create…`, `emplace_back`, `InitializeCommunication` |
| `Nan` | `scrutinize_solution`, `wetting_drying_kernel` with NaN |
| `Examples` | functions and constants of `examples/*`, bed of the mesh generator |
| `Compare` | `scripts/correctness/compare_l2_errors.py` |
| `Decimal` | doubles printed by `operator<<` with `setprecision(15)` and read by `operator>>` |
| `Schedule` | threads of all ranks as interleaved sequences of operations: `simulation_ompi*.hpp`, the `*_ompi_step.hpp` and `*_pre_ompi.hpp` texts, barriers, persistent MPI requests with open buffering |
| `SweUnit` | memory of one simulation unit of the RKDG program and its kernels between the exchanges: `rkdg_swe_proc_ompi_step.hpp`, `swe_CS_sl_ompi.hpp` |
| `EhdgUnit` | memory of one simulation unit of the EHDG program and its kernels between the exchanges: `ehdg_swe_proc_ompi_step.hpp`, `ehdg_swe_pre_init_global_prob.hpp` |
| `Rounds` | `ihdg_swe_proc_ompi_step.hpp`, `ihdg_swe_proc_ompi_sol_glob_prob.hpp`: threads, barriers and the collective solve |
| `GnSchedule` | `ehdg_gn_proc_ompi_step.hpp`, `ehdg_gn_proc_ompi_sol_glob_prob.hpp`, `grad_methods/*_ompi.hpp`: the text of the Green-Naghdi step |
| `GnMeet` | `ehdg_gn_proc_ompi_sol_glob_prob.hpp` lines 147-326, `recon_avg_derivatives_ompi.hpp`: barrier, collective operation, barrier, rank by rank |
| `IhdgSchedule` | `ihdg_swe_proc_ompi_step.hpp`, `ihdg_swe_proc_ompi_sol_glob_prob.hpp`: the text of the implicit step with the slope limiter |
| `IhdgUnit` | `ihdg_swe_proc_ompi_step.hpp`, `ihdg_swe_proc_ompi_sol_glob_prob.hpp`: what one submesh computes |
| `Fort14Text` | the characters of `fort.14` files: `adcirc_format.cpp` reading and writing with field widths, comments, digits |
| `Edge` | `geometry/edge_*.hpp`, flatten and reshape of `utilities/linear_algebra` |

## Findings

Behaviour of the code that contradicts a property, or that had to be excluded. Where a theorem states it, its name is given.

* Stepper: the correction table `drk` is zero for every scheme, so stage times are those of `crk` only (C05). Five tables have row sums that are not exactly one in
  decimal (C02). An output frequency of zero is a division by zero; 2^32 − 1 steps never end (C09).
* Mesh input: island boundary codes are accepted by the reader but cannot be classified (C16); `NGEN`/`NNGN` are read but not initialised elsewhere (C17); a levee
  with a single node reads out of bounds (C15); boundary codes which are white space, and coordinates with more than 15 digits, are not read back (C18).
* Partitioner: pairs of submeshes in double contact (C22), self loops handed to METIS (C24), stale files are picked up (C23), message tags collide from submesh 256 on (C25,
  and may exceed the guaranteed bound), levee data of a node shared by two distributed faces are shifted (C26). All weights zero is a division by zero. The test of the
  problem name `swe` never matches.
* Mesh setup: unmatched raw internal boundaries and duplicate faces vanish (C29); outflow boundaries have no condition (C30); clockwise triangles are reordered after the
  faces are numbered (C33).
* Basis: Jacobi coefficients overflow for 2n + a + b > 1625 (C38). Triangle rules end at degree 20, so that elements have degree at most 10; some have points outside
  the triangle or negative weights.
* Fluxes: the exterior flux lacks the projection factor (C42, hence C43–C45); the momentum flux at land contains more than the pressure (C45); a levee loses half of
  the difference of the normal discharges (C46); both sides of a levee use normal and length of the interior side.
* Limiter: the trouble check mixes rows and depends on the datum (C51); its flag is never read; a dry neighbour in another submesh is seen with zero depth (C68); the
  troubled area is not propagated across submeshes.
* Wetting and drying: emptying an element creates water (C49); higher modes are dropped.
* Sources: tide potential, Coriolis and meteorological forcing are read but not used (C52); the x component is not scaled with the projection factor.
* Implicit scheme: the source derivative lacks the bathymetry term and is not a number in still water (C69); the Newton iteration goes on after 100 steps without
  convergence. With bottom friction a lake at rest makes the derivative of the source 0 / 0 and the step yields NaN (C87, `rest_friction`). At tide and flow boundaries the
  matrix lacks the derivative of the exterior state, which contains interior values (C83, `open_boundary_wrong`), and phases
  in degrees are used as radians (C84, `forcing_wrong`); both are right in the initial trace. Levees compute nothing. At land the normal speed of the trace vanishes and the
  derivative of the absolute eigenvalue does not exist; the code uses the mean of the one-sided derivatives (`abs_mean`). With Blaze the sparse solver aborts and repeated
  entries of the assembled matrix overwrite each other, so that the serial program needs Eigen; the parallel program takes `front()` of an empty vector on all ranks but the
  first. The `Function` boundary computes a water level and then overwrites it with that of the function.
  Traces are initialised once and not again after limiting; then the first iteration of a step loses water through land traces that no longer fit, and only a second
  iteration restores it (C85); with order two the fluxes of the old traces enter, and what they lose is not restored (`stage_water_order2`).
* Explicit hybridized scheme: levee fluxes are not implemented, the flux matrices are used as they are (C78, `levee_undefined`); the projection factor is ignored
  (C78, `projection_ignored`); the version of `get_tau_LF` with a gravity argument ignores it; the in-place stabilization loop is right only because the trace is the mean
  of both sides (C74, `loop_state`); the Newton iteration for boundary traces may stop without convergence unnoticed, and starts from a zero trace.
  Its matrix is singular where interior, prescribed state and trace agree and nothing flows through the boundary, for example in water at rest (C81, `singular_at_rest`):
  LAPACK then reports an error and Blaze throws, Eigen picks a solution.
* Green-Naghdi: `ComputeGlobalKernelsDC` of levees is an empty function and nothing else writes the kernel arrays of a levee edge. If they hold zeros, the rows of the levee in the global matrix are zero and the matrix is singular (C94, `levee_singular`).
* Green-Naghdi: `hx = zex + bx` in the source, with `bx` the derivative of the bed (minus that of `bath`), should be `zex - bx` (C90, `source_wrong`).
* Green-Naghdi: back substitution in the dispersive correction takes the part of the vector of dry edges too, with a number of an earlier step (C89, `dc_fails`; on several ranks one rank without a wet element is enough, `parallel_fails`). With Blaze
  `solve_sle` overwrites the matrix, which the code then uses for three more systems; levees have no condition in the correction; as in the implicit scheme the parallel
  program takes `front()` of an empty vector.
* Green-Naghdi on several ranks: the comparison with one rank (C97) orients a cut interface of the serial mesh from the smaller (locality, submesh) to the larger, as
  the edges of the ranks are. The weights of the rules on edges are symmetric.
* Green-Naghdi with `B_GREENGAUSS` on several ranks: second derivatives of the bathymetry integrate averages of both sides at interfaces but own values at cut edges
  (the averages are formed one step later), so they depend on the partition unless the first derivatives are continuous (C103, `ddbath_ranks_differ`, `ddbath_ranks_avg`).
* Green-Naghdi: `D_RECON_AVG` without `B_RECON_AVG` leaves the serial program without numbers and multiplicities of nodes. If no pair of neighbours has nonnegative
  coefficients, the interpolating reconstruction silently uses zeros, which makes it constant at that side.
* Green-Naghdi with `D_RECON_AVG` on several ranks: `recon_avg_derivatives_ompi.hpp` assigns `state[0]` where the serial file assigns `state[stage]` and the kernels read
  `state[stage]`. Nothing else assigns these members, so all stages after the first use what the array held when the run began (C104, `avg_stale`, `avg_never`, `avg_loses_slope`).
* Green-Naghdi on several ranks: `initialize_data_parallel_pre_send` (through `initialize_data_serial`) inverts a matrix with zeros for the barycentres of neighbours on other ranks. It is singular if all sides of an
  element are cut, or if two are and the third neighbour is in line with the origin of coordinates (C104, `pre_send_singular`, `two_sides_singular`). The result is never used: it is
  computed again after the messages.
* Green-Naghdi on several ranks: coefficients of interpolation that are found after the messages replace those found before, so a later pair of neighbours may win (C104, `interp_last`, `recon_differs`).
* Partitioner: with default initial conditions the depth of every node is taken as twice `h_o`, so every element has the weight of a wet one (C106, `weight_default_wrong`); an initial
  function is evaluated at the coordinates in the file, which the program projects first if they are spherical (C106, `weight_function_wrong`).
* Elements of degree zero: the bathymetry is its mean over the element and jumps at interfaces, and its slope is zero, so that a lake at rest over an uneven bed does not stay at
  rest (C105, `degree_zero_bath`).
* Orientation: the order of the nodes of an element is not checked. With a clockwise element the program starts, but it joins one of its other sides to the neighbour, gives the
  common side the boundary condition of that side, and runs the data of open boundaries backwards (C107, `clockwise_program`).
* Sphere: the kernels scale the flux in x by cos φ₀ / cos φ but have no term -F_y tan φ / R, so that the program does not solve the equations on the sphere (C108, `north_wrong`).
  `LLF_flux` scales the interior flux but not the exterior one, and the slope of the bed is not scaled, so that a lake at a level other than zero moves (C109, `level_wrong`).
  The EHDG, IHDG and Green-Naghdi kernels ignore the factor.
* Output: `velocity_point` in VTU files is a quotient by the depth, `nan` or `inf` where the depth is zero, which makes the file unreadable (C110, `vtu_unreadable`); the legacy files
  have no such array. Coordinates are written with six digits (`six_digits_collapse`), which is coarser than elements of a few metres in projected coordinates.
  An output frequency of zero makes a remainder by zero.
* Interfaces: the numerical flux takes the depth of both sides from the bathymetry of the interior element. Where the bathymetry jumps the result depends on which element is the
  interior one (C112, `swap_matters`), which is decided by the order of a hash table.
* Slope limiter: the balance of the corrections (`theta_plus`, `theta_minus`) and the test whether anything changed work on the two components of the discharge one by one, so the
  limiter has preferred directions (C113, `limiter_turns_not`); everything else in the scheme has none.
* Reported error: `ComputeResidualL2` integrates squares with Dunavant's rule of degree 20, which has three negative weights and nine points outside the triangle. The sum of squares
  can be negative and the report `nan` (C114, `report_nan`). The rules of degree 16 and 18, used by elements of degree 8 and 9, have points outside as well.
* Flow boundaries (RKDG): the prescribed discharge is used as exterior state of the Lax-Friedrichs flux with the inner water level, so the mass flux is the mean of prescribed
  and inner discharge. Until the inner state has adapted, the wrong amount of water enters, into still water the half (C116). The sign is that of the outward normal.
* Units: two tolerances of the RKDG fluxes are plain numbers, 1e-12 for the flux between a wet and a dry element and 0.01 for heights over a weir; with other units of height the
  decisions differ (C117). The wetting and drying threshold scales with the drying depth. Everything else in a stage is dimensionally consistent.
* The check for NaN (`scrutinize_solution`) runs after wetting and drying and the limiter, so a NaN in an element that is found dry has been overwritten before. In the parallel
  program it calls `MPI_Abort` with code 0, which reports success to the shell. The first output is written before any check.
* Parallel runs look for files `stem_<rank>_<submesh>` until one is missing. The partitioner does not delete files of an earlier partition with more submeshes, so those are run as well.
* Meteorological files: for a node missing in a snapshot an empty vector is indexed; the name of the file must contain a dot. Nodes missing in the Manning file get coefficient 0.
* C125: a NaN in the discharge of an element that dries in the same stage is overwritten by zero before the scrutiny sees it. In the parallel program a NaN ends the run by `MPI_Abort` with exit code 0 (`rkdg_swe_proc_ompi_step.hpp` line 125), which a script takes for success. Infinite values pass the scrutiny.
* The include guard of `swe_trouble_check.hpp` defines `SWE_TROUBLE_CHECK_HpP` but tests `SWE_TROUBLE_CHECK_HPP`; it guards nothing. The header is included once per translation unit, so this has no effect yet.
* C127: the mesh generator in the repository writes a bed of 1.5, the manufactured solution needs 2; `test_swe_parallel_correctness.sh` overwrites the generator's file, who follows the example by hand must know.
* C128: the oscillation of the parabolic bowl example reaches the walls: at half period the exact shoreline has radius 4148 m, the basin ends at 4000 m. The unused `tau` in its initial data is not the period (it lacks a square root).
* C129: the solitary wave of `gn_analytical_solution` belongs to alpha = 1, the program has alpha = 1.159 (`gn_definitions.hpp` line 24) and no input to change it; the reported error does not tend to zero.
* C130: `compare_l2_errors.py` takes group 1 of its pattern, which lacks sign and power of ten. Two errors that agree exactly and are zero are rejected.
* Include guards: `swe_pre_create_edge_dbound.hpp` carries the guard of its EHDG counterpart.
* C18: the metadata files hold 15 digits. A mesh file with more digits gives the serial program, which reads the mesh file, other coordinates than the parallel program, which reads the files of the partitioner; the relative difference is below 6e-15, and a second round trip changes nothing.
* `write_to` keeps 15 digits of coordinates, so a mesh file is not restored for every double (`text_digits_lost`), and only the first word of the title survives reading. A negative coordinate with an exponent of three digits fills its field of 22 characters without a space before it.
* `ehdg_gn_pre_ompi.hpp` lines 257-260 let every thread resize the stages of the elements of all units of its rank, not only of its own: a data race with two threads (`gn_resize_race`).
* Green-Naghdi runs call `ParseInput` with the half-step stepper and with the full-step stepper in turn (`ehdg_gn_proc_serial_step.hpp` lines 18-40). The half-step stepper counts two steps per time step but the frequency of the files is computed with the full `dt` (`swe_parser.hpp` lines 41-42), so files are asked for by two different counts of steps. Read from the source, not modelled.
* A blank line in a `dbmd` file leaves the five numbers of the header as they were (`mesh_metadata.cpp` lines 161-166), so it is taken as the previous header once more (or as uninitialised numbers in the first line). Read from the source, not modelled.
* The limiter: the coefficients `alpha` come from a 2 by 2 system and are not checked to be nonnegative (`swe_pre_init_data.hpp` lines 303-325); at outer boundaries the neighbour is the mirrored barycentre (lines 288-295) with the state of the element itself (`swe_CS_slope_limiter.hpp` line 44).
* The mesh generator casts the number of the pattern to an `enum` of 8 bits before checking it (`quad_mesh_generator.cpp` lines 369-372), so 256 is accepted as pattern 0. Read from the source, not modelled.
* Edges: the number of trace functions is read off as the number of Gauss points, which is right only because the rule of degree 2p + 1 has p + 1 points (C79). The
  orientation of an edge distributed to the same submesh is uninitialised.
* Input: a blank last line of `bcis` files is undefined behaviour (C56), as is an empty output path; phases of constituents are interpolated linearly without wrap; nodes
  of a boundary with different numbers of constituents are undefined behaviour; the result of `strptime` is unchecked; incomplete sections leave defaults with a warning.
