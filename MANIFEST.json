{
 "claims": [
  {
   "property": "C01",
   "status": "proved",
   "theorems": [
    "Verif.Stepper.Props.explicit_clock",
    "Verif.Stepper.Props.explicit_clock_consistent"
   ],
   "note": ""
  },
  {
   "property": "C02",
   "status": "proved",
   "theorems": [
    "Verif.Stepper.Props.accepts_iff",
    "Verif.Stepper.Props.accepted_convex",
    "Verif.Stepper.Props.exact_rows",
    "Verif.Stepper.Props.inexact_rows"
   ],
   "note": ""
  },
  {
   "property": "C03",
   "status": "proved",
   "theorems": [
    "Verif.Stepper.Props.ssp_convex",
    "Verif.Stepper.Props.ssp_cone",
    "Verif.Stepper.Props.ratio_bound"
   ],
   "note": "convex sets need exact row sums (7 of 12 tables); cones: all tables"
  },
  {
   "property": "C04",
   "status": "proved",
   "theorems": [
    "Verif.Stepper.Props.order_conditions",
    "Verif.Stepper.Props.butcher_form"
   ],
   "note": "order conditions of the Butcher form; Taylor expansion of the exact solution itself is not formalised"
  },
  {
   "property": "C05",
   "status": "partial",
   "theorems": [
    "Verif.Stepper.Props.stage_time_partial",
    "Verif.Stepper.Props.stage_time_wrong",
    "Verif.Stepper.Props.stage_time_table"
   ],
   "note": "property is false of the code: drk is identically 0, so every stage but the first reports the base time"
  },
  {
   "property": "C06",
   "status": "proved",
   "theorems": [
    "Verif.Stepper.Props.full_step_is_shu_osher",
    "Verif.Stepper.Props.full_steps_are_shu_osher"
   ],
   "note": ""
  },
  {
   "property": "C07",
   "status": "proved",
   "theorems": [
    "Verif.Stepper.Props.ramp_off",
    "Verif.Stepper.Props.ramp_on",
    "Verif.Stepper.Props.noRamp_iff"
   ],
   "note": ""
  },
  {
   "property": "C08",
   "status": "proved",
   "theorems": [
    "Verif.Stepper.Props.implicit_accepts_iff",
    "Verif.Stepper.Props.implicit_clock",
    "Verif.Stepper.Props.implicit_weights",
    "Verif.Stepper.Props.strang_clock"
   ],
   "note": ""
  },
  {
   "property": "C09",
   "status": "proved",
   "theorems": [
    "Verif.Util.Props.steps_least",
    "Verif.Util.Props.steps_defined",
    "Verif.Util.Props.output_schedule",
    "Verif.Util.Props.output_each_once",
    "Verif.Util.Props.zero_frequency_undefined",
    "Verif.Util.Props.data_file_injective"
   ],
   "note": "an output frequency that rounds to 0 steps is undefined behaviour (modulo by zero)"
  },
  {
   "property": "C10",
   "status": "proved",
   "theorems": [
    "Verif.Util.Props.threads_cover",
    "Verif.Util.Props.threads_unique"
   ],
   "note": ""
  },
  {
   "property": "C11",
   "status": "proved",
   "theorems": [
    "Verif.Util.Props.edge_types_partition",
    "Verif.Util.Props.distributed_roundtrip",
    "Verif.Util.Props.distributed_only_internal"
   ],
   "note": ""
  },
  {
   "property": "C14",
   "status": "proved",
   "theorems": [
    "Verif.Adcirc.Props.hasEdge_iff",
    "Verif.Adcirc.Props.getIbtype_spec",
    "Verif.Adcirc.Props.read_wf"
   ],
   "note": ""
  },
  {
   "property": "C15",
   "status": "proved",
   "theorems": [
    "Verif.Adcirc.Props.opposite_pair"
   ],
   "note": "barriers with fewer than two nodes read out of range; excluded by the index bound"
  },
  {
   "property": "C16",
   "status": "partial",
   "theorems": [
    "Verif.Adcirc.Props.island_not_classified",
    "Verif.Adcirc.Props.edge_classified_partial"
   ],
   "note": "property is false of the code: island boundaries (code 1 mod 10) are accepted but raise an exception when classified; proved for all other codes"
  },
  {
   "property": "C17",
   "status": "partial",
   "theorems": [
    "Verif.Fort14.Props.text_exact_partial",
    "Verif.Fort14.Props.text_file_partial",
    "Verif.Fort14.Props.text_round_trip_partial",
    "Verif.Fort14.Props.text_settles",
    "Verif.Fort14.Props.text_undefined",
    "Verif.Fort14.Props.text_undefined_witness",
    "Verif.Fort14.Props.text_digits_lost",
    "Verif.Adcirc.Props.file_round_trip_partial",
    "Verif.Adcirc.Props.write_read_partial",
    "Verif.Adcirc.Props.write_undefined",
    "Verif.Adcirc.Props.write_undefined_witness"
   ],
   "note": "Property is false of the code for files without a generic boundary section (uninitialised NGEN) and for doubles with more than 15 digits (text_digits_lost). Proved at the level of characters for all other files: what was read is written and read back with its numbers rounded to 15 digits, and exactly if they came from texts with at most 15 digits; coordinates outside 1e-98 .. 1e99 are not covered."
  },
  {
   "property": "C58",
   "status": "proved",
   "theorems": [
    "Verif.Util.Props.almost_equal_spec",
    "Verif.Util.Props.heartbeat_poll",
    "Verif.Util.Props.heartbeat_once_per_period"
   ],
   "note": ""
  },
  {
   "property": "C59",
   "status": "proved",
   "theorems": [
    "Verif.Util.Props.hetVec_spec",
    "Verif.Util.Props.hetMap_spec",
    "Verif.Util.Props.hetMap_size"
   ],
   "note": ""
  },
  {
   "property": "C12",
   "status": "proved",
   "theorems": [
    "Verif.MeshMeta.Props.edge_key_iff",
    "Verif.MeshMeta.Props.edge_key_lt"
   ],
   "note": ""
  },
  {
   "property": "C13",
   "status": "proved",
   "theorems": [
    "Verif.MeshMeta.Props.adjacency",
    "Verif.MeshMeta.Props.internal_iff",
    "Verif.MeshMeta.Props.internal_symm",
    "Verif.MeshMeta.Props.build_ok",
    "Verif.MeshMeta.Props.order_independent"
   ],
   "note": ""
  },
  {
   "property": "C18",
   "status": "partial",
   "theorems": [
    "Verif.Decimal.Props.meta_exact_partial",
    "Verif.Text.Props.meta_round_trip_partial",
    "Verif.Text.Props.known_codes_ok",
    "Verif.Decimal.Props.print_read",
    "Verif.Decimal.Props.digits_survive",
    "Verif.Decimal.Props.trip_trip",
    "Verif.Decimal.Props.trip_close",
    "Verif.Decimal.Props.digits_lost",
    "Verif.Text.Props.meta_space_lost"
   ],
   "note": "False of the code: coordinates are written with 15 digits, which not every double survives (digits_lost), and a type code that is a white space byte is not restored (meta_space_lost). Proved: everything is restored exactly for every type code the code base defines if the coordinates have been read from texts with at most 15 significant digits; what has been written and read once is restored exactly; the error is below 6e-15."
  },
  {
   "property": "C19",
   "status": "proved",
   "theorems": [
    "Verif.Text.Props.dbmd_read",
    "Verif.Text.Props.dbmd_reject",
    "Verif.Text.Props.dbmd_two_sided"
   ],
   "note": ""
  },
  {
   "property": "C20",
   "status": "proved",
   "theorems": [
    "Verif.Partition.Props.partition_spec"
   ],
   "note": "Every element ends up exactly once in the submesh of its partition, with the same nodes, coordinates and neighbours, for every METIS answer and every hash map order. METIS itself is a parameter."
  },
  {
   "property": "C21",
   "status": "proved",
   "theorems": [
    "Verif.Partition.Props.partition_spec"
   ],
   "note": "The FacesMarked part of the theorem: exactly the internal faces whose neighbour is in another submesh get the distributed type."
  },
  {
   "property": "C22",
   "status": "proved",
   "theorems": [
    "Verif.Partition.Props.dbmd_files",
    "Verif.Partition.Props.parts_of_partition",
    "Verif.Partition.Props.partition_then_files",
    "Verif.Partition.Props.build_consistent",
    "Verif.Partition.Props.build_simple",
    "Verif.Partition.Props.mesh_to_files",
    "Verif.Partition.Props.double_contact_lost"
   ],
   "note": "double_contact_lost shows why the premise 'two elements meet in at most one face' is needed."
  },
  {
   "property": "C23",
   "status": "proved",
   "theorems": [
    "Verif.Partition.Props.rank_bijective",
    "Verif.Partition.Props.names_agree",
    "Verif.Partition.Props.names_injective",
    "Verif.Partition.Props.discover_exact"
   ],
   "note": ""
  },
  {
   "property": "C24",
   "status": "proved",
   "theorems": [
    "Verif.Csr.Props.csr_spec",
    "Verif.Csr.Props.csr_symmetric",
    "Verif.Csr.Props.csr_reject",
    "Verif.Csr.Props.submesh_self_loop"
   ],
   "note": "submesh_self_loop is a finding: the second graph built by partition() is not loop-free, so METIS gets self loops. Weights are exact rationals; the int64 scaling is not modelled."
  },
  {
   "property": "C25",
   "status": "partial",
   "theorems": [
    "Verif.Comm.Props.tags_pair",
    "Verif.Comm.Props.tags_unique_partial",
    "Verif.Comm.Props.delivery_partial",
    "Verif.Comm.Props.tag_collision"
   ],
   "note": "Pairing holds for all ids. Uniqueness holds for submesh ids below 256; tag_collision proves that it fails above (finding). MPI itself is modelled as FIFO channels per (source, destination, tag)."
  },
  {
   "property": "C26",
   "status": "proved",
   "theorems": [
    "Verif.Comm.Props.layout",
    "Verif.Comm.Props.exchange",
    "Verif.Comm.Props.messages_fit",
    "Verif.Comm.Props.create_succeeds",
    "Verif.Comm.Props.sides_agree",
    "Verif.Comm.Props.levee_data",
    "Verif.Comm.Props.levee_data_shifted"
   ],
   "note": "For all four problem types. levee_data_shifted is a finding about nodes on two levees."
  },
  {
   "property": "C27",
   "status": "proved",
   "theorems": [
    "Verif.QuadMesh.Props.slots_once",
    "Verif.QuadMesh.Props.triangulation",
    "Verif.QuadMesh.Props.sides_spec",
    "Verif.QuadMesh.Props.generate_conforming"
   ],
   "note": "For axis-parallel rectangles (generate_conforming and slots_once for every quadrilateral)."
  },
  {
   "property": "C60",
   "status": "proved",
   "theorems": [
    "Verif.QuadMesh.Props.generated_mesh"
   ],
   "note": "Comments at line ends and the decimal formatting of coordinates are not modelled."
  },
  {
   "property": "C28",
   "status": "proved",
   "theorems": [
    "Verif.Assemble.Props.interfaces_exact",
    "Verif.Assemble.Props.face_in_one_interface",
    "Verif.Assemble.Props.mesh_interfaces"
   ],
   "note": "A mesh is consistent here if no element meets another in two faces of the same type; mesh_interfaces derives this from the mesh file."
  },
  {
   "property": "C29",
   "status": "partial",
   "theorems": [
    "Verif.Assemble.Props.processed_partial",
    "Verif.Assemble.Props.unmatched_face_lost",
    "Verif.Assemble.Props.second_contact_lost"
   ],
   "note": "Property is false of the code: internal faces without a partner are dropped silently. All other faces are proved to be processed or to cause an error."
  },
  {
   "property": "C30",
   "status": "partial",
   "theorems": [
    "Verif.Assemble.Props.codes_accepted_partial",
    "Verif.Assemble.Props.outflow_rejected"
   ],
   "note": "Property is false of the code: outflow (4) has no boundary condition and is rejected at mesh initialisation. All other codes are handled."
  },
  {
   "property": "C31",
   "status": "proved",
   "theorems": [
    "Verif.Geometry.Props.normal_spec",
    "Verif.Geometry.Props.normals_close",
    "Verif.Geometry.Props.jacobian_area",
    "Verif.Geometry.Props.construct_ccw",
    "Verif.Geometry.Props.jinv_spec",
    "Verif.Geometry.Props.psi_spec",
    "Verif.Geometry.Props.length_eq",
    "Verif.Geometry.Props.centres",
    "Verif.Geometry.Props.radius_spec",
    "Verif.Geometry.Props.dchi_eq_dpsi"
   ],
   "note": "Over every ordered field with a square root function."
  },
  {
   "property": "C32",
   "status": "proved",
   "theorems": [
    "Verif.Geometry.Props.maps_inverse",
    "Verif.Geometry.Props.corners",
    "Verif.Geometry.Props.contains_iff"
   ],
   "note": ""
  },
  {
   "property": "C33",
   "status": "partial",
   "theorems": [
    "Verif.Geometry.Props.face_nodes_partial",
    "Verif.Geometry.Props.face_point",
    "Verif.Geometry.Props.clockwise_faces_exchanged"
   ],
   "note": "Property is false of the code for clockwise input: the constructor exchanges nodes 0 and 2 and thereby faces 0 and 2. Proved for counterclockwise input."
  },
  {
   "property": "C34",
   "status": "proved",
   "theorems": [
    "Verif.Geometry.Props.gauss_points_coincide",
    "Verif.Geometry.Props.common_edge_reversed",
    "Verif.Quadrature.Props.line_points_symmetric"
   ],
   "note": "line_points_symmetric shows that the rules used satisfy the symmetry hypothesis."
  },
  {
   "property": "C61",
   "status": "proved",
   "theorems": [
    "Verif.Geometry.Props.vtk_points",
    "Verif.Geometry.Props.tessellation",
    "Verif.Geometry.Props.tessellation_counts"
   ],
   "note": ""
  },
  {
   "property": "C35",
   "status": "proved",
   "theorems": [
    "Verif.Basis.Props.dof_of_pair",
    "Verif.Basis.Props.dof_bijection",
    "Verif.Basis.Props.degree_monotone"
   ],
   "note": "For every rounding mode with relative error 2^-53 that is monotone and exact on integers."
  },
  {
   "property": "C36",
   "status": "proved",
   "theorems": [
    "Verif.Basis.Props.basisLinear_spec",
    "Verif.Basis.Props.vertex_round_trip",
    "Verif.Basis.Props.coeff_round_trip",
    "Verif.Basis.Props.mean_coeff",
    "Verif.Basis.Props.mean_is_coeff"
   ],
   "note": ""
  },
  {
   "property": "C37",
   "status": "proved",
   "theorems": [
    "Verif.Basis.Props.legendre_orthogonal",
    "Verif.Basis.Props.dubiner_orthogonal",
    "Verif.Basis.Props.jacobi_orth"
   ],
   "note": "Integrals are Mathlib interval integrals, over the triangle as iterated integral."
  },
  {
   "property": "C38",
   "status": "proved",
   "theorems": [
    "Verif.Basis.Props.jacobi_rodrigues",
    "Verif.Basis.Props.jacobi_deriv",
    "Verif.Basis.Props.jacobi_at_one",
    "Verif.Basis.Props.jacobi_eq"
   ],
   "note": "The classical definition is Rodrigues' formula."
  },
  {
   "property": "C39",
   "status": "proved",
   "theorems": [
    "Verif.Basis.Props.dubiner_polynomial"
   ],
   "note": ""
  },
  {
   "property": "C40",
   "status": "proved",
   "theorems": [
    "Verif.Quadrature.Props.line_rules",
    "Verif.Quadrature.Props.triangle_rules",
    "Verif.Quadrature.Props.orbit_symmetric",
    "Verif.Quadrature.Props.weights_sum",
    "Verif.Quadrature.Props.line_points_symmetric",
    "Verif.Quadrature.Props.rnd_near",
    "Verif.Quadrature.Props.rnd_neg"
   ],
   "note": "Doubles are modelled as stored, with rounding. Sums of weights within 2^-50 (line) and 2^-45 (triangle)."
  },
  {
   "property": "C41",
   "status": "proved",
   "theorems": [
    "Verif.Quadrature.Props.gauss_table",
    "Verif.Quadrature.Props.line_monomials",
    "Verif.Quadrature.Props.line_exact",
    "Verif.Quadrature.Props.triangle_monomials",
    "Verif.Quadrature.Props.triangle_exact"
   ],
   "note": "Evaluated on the stored doubles; the sum itself is exact. Tolerances 2^-50 and 2^-45 per unit coefficient."
  },
  {
   "property": "C42",
   "status": "partial",
   "theorems": [
    "Verif.Swe.Props.llf_consistent_partial",
    "Verif.Swe.Props.llf_same_state",
    "Verif.Swe.Props.llf_inconsistent",
    "Verif.Swe.Props.flux_physical"
   ],
   "note": "False of the code when the spherical projection factor sp is not 1: the exterior flux is not scaled. Proved for sp = 1."
  },
  {
   "property": "C43",
   "status": "partial",
   "theorems": [
    "Verif.Swe.Props.llf_conservative",
    "Verif.Swe.Props.internal_mass_partial",
    "Verif.Swe.Props.internal_reflective",
    "Verif.Swe.Props.internal_mass_general",
    "Verif.Swe.Props.llf_not_conservative"
   ],
   "note": "Conservative for sp = 1; for sp different from 1 the negation is proved."
  },
  {
   "property": "C44",
   "status": "partial",
   "theorems": [
    "Verif.Swe.Props.split_interface_partial",
    "Verif.Swe.Props.split_levee",
    "Verif.Swe.Props.distributed_differs"
   ],
   "note": "Both ranks compute the flux of the serial code when sp = 1; counterexample otherwise."
  },
  {
   "property": "C45",
   "status": "partial",
   "theorems": [
    "Verif.Swe.Props.land_impermeable_partial",
    "Verif.Swe.Props.land_flux",
    "Verif.Swe.Props.land_mirror",
    "Verif.Swe.Props.land_leaks",
    "Verif.Swe.Props.land_momentum"
   ],
   "note": "Impermeable for sp = 1; for other sp mass leaks through walls."
  },
  {
   "property": "C46",
   "status": "partial",
   "theorems": [
    "Verif.Swe.Props.levee_closed",
    "Verif.Swe.Props.levee_mass_partial",
    "Verif.Swe.Props.levee_mass_lost",
    "Verif.Swe.Props.distributed_levee_same"
   ],
   "note": "False of the code when water overtops: each side uses its own Lax-Friedrichs flux. Proved for closed levees and when both sides carry the same normal discharge."
  },
  {
   "property": "C62",
   "status": "proved",
   "theorems": [
    "Verif.Swe.Props.open_boundaries",
    "Verif.Swe.Props.forcing_sum"
   ],
   "note": ""
  },
  {
   "property": "C47",
   "status": "proved",
   "theorems": [
    "Verif.Swe.Props.jacobian_derivative",
    "Verif.Swe.Props.eigenvectors_inverse",
    "Verif.Swe.Props.decomposition",
    "Verif.Swe.Props.eigenvalues",
    "Verif.Swe.Props.dA_derivative",
    "Verif.Swe.Props.dabsA_derivative"
   ],
   "note": "Algebra over every ordered field with square roots, derivatives over the reals; the derivatives of |A|, A+, A- where no characteristic speed vanishes."
  },
  {
   "property": "C63",
   "status": "proved",
   "theorems": [
    "Verif.Swe.Props.tau_bounds",
    "Verif.Swe.Props.tau_derivative"
   ],
   "note": ""
  },
  {
   "property": "C49",
   "status": "proved",
   "theorems": [
    "Verif.Swe.Props.wet_dry",
    "Verif.Swe.Props.threshold_range",
    "Verif.Swe.Props.init_wet_dry"
   ],
   "note": "Emptied elements are filled up to the threshold and flagged. Higher modes of treated elements are dropped."
  },
  {
   "property": "C50",
   "status": "proved",
   "theorems": [
    "Verif.Swe.Props.limiter_mean",
    "Verif.Swe.Props.limitAll_mean",
    "Verif.Swe.Props.balance_sum",
    "Verif.Swe.Props.limiter_constant",
    "Verif.Swe.Props.limiter_result"
   ],
   "note": ""
  },
  {
   "property": "C51",
   "status": "partial",
   "theorems": [
    "Verif.Swe.Props.detector_normal_momentum_partial",
    "Verif.Swe.Props.detector_wrong_rows",
    "Verif.Swe.Props.detector_depends_on_datum",
    "Verif.Swe.Props.detector_continuous",
    "Verif.Swe.Props.detector_monotone"
   ],
   "note": "False of the code: the rows of level and x discharge are used. Proved only for states where this makes no difference."
  },
  {
   "property": "C64",
   "status": "proved",
   "theorems": [
    "Verif.Swe.Props.weir_max",
    "Verif.Swe.Props.weir_regimes"
   ],
   "note": ""
  },
  {
   "property": "C65",
   "status": "proved",
   "theorems": [
    "Verif.Swe.Props.limiter_linear",
    "Verif.Swe.Props.limiter_accepts",
    "Verif.Swe.Props.slDelta_characteristic",
    "Verif.Swe.Props.minmod_spec",
    "Verif.Swe.Props.balance_bound",
    "Verif.Swe.Props.alpha_spec",
    "Verif.Swe.Props.slGeom_spec"
   ],
   "note": ""
  },
  {
   "property": "C66",
   "status": "proved",
   "theorems": [
    "Verif.Swe.Props.limiter_current",
    "Verif.Swe.Props.prepare_spec",
    "Verif.Swe.Props.message_spec"
   ],
   "note": ""
  },
  {
   "property": "C67",
   "status": "proved",
   "theorems": [
    "Verif.Swe.Props.troubled_spec",
    "Verif.Swe.Props.seed_spec"
   ],
   "note": ""
  },
  {
   "property": "C68",
   "status": "partial",
   "theorems": [
    "Verif.Swe.Props.detector_distributed_partial",
    "Verif.Swe.Props.detector_distributed_differs"
   ],
   "note": "False of the code if the neighbour across the submesh boundary is dry: its depths are sent as zeros."
  },
  {
   "property": "C52",
   "status": "partial",
   "theorems": [
    "Verif.Swe.Props.enabled_sources_partial",
    "Verif.Swe.Props.enabled_sources_ignored",
    "Verif.Swe.Props.enabled_sources_wrong",
    "Verif.Swe.Props.setup_spec"
   ],
   "note": "False of the code: the code for meteorological, tidal and Coriolis terms is commented out. Proved for bathymetry, function source and friction."
  },
  {
   "property": "C53",
   "status": "proved",
   "theorems": [
    "Verif.Swe.Props.friction_dissipates",
    "Verif.Swe.Props.friction_coefficient",
    "Verif.Swe.Props.manning_spec"
   ],
   "note": ""
  },
  {
   "property": "C54",
   "status": "proved",
   "theorems": [
    "Verif.Swe.Props.meteo_window",
    "Verif.Swe.Props.meteo_missing_file",
    "Verif.Swe.Props.meteo_zero_frequency",
    "Verif.Swe.Props.meteo_file_injective"
   ],
   "note": "For the explicit stepper, whose stage times never leave the base time of the step (C05). Frequency 0 is undefined behaviour."
  },
  {
   "property": "C69",
   "status": "partial",
   "theorems": [
    "Verif.Swe.Props.source_derivative_partial",
    "Verif.Swe.Props.source_derivative_wrong",
    "Verif.Swe.Props.source_derivative_frictionless",
    "Verif.Swe.Props.still_water_undefined"
   ],
   "note": "False of the code: the derivative of the bathymetry term is missing, and in still water the entries are not numbers. Friction part proved for moving water."
  },
  {
   "property": "C57",
   "status": "proved",
   "theorems": [
    "Verif.Swe.Props.run_mass",
    "Verif.Swe.Props.stage_mass",
    "Verif.Swe.Props.rhs_total",
    "Verif.Swe.Props.water_integral",
    "Verif.Swe.Props.code_mass",
    "Verif.Swe.Props.run_succeeds"
   ],
   "note": "Whole RKDG stages on arbitrary meshes with any wet/dry flags, wetting and drying, limiter and source terms; interfaces internal, boundaries land, projection factor 1, tables with exact row sums, no element emptied by the wet/dry treatment (then mass changes, C49)."
  },
  {
   "property": "C48",
   "status": "proved",
   "theorems": [
    "Verif.Swe.Props.lake_at_rest",
    "Verif.Swe.Props.rest_rhs",
    "Verif.Swe.Props.rest_residual",
    "Verif.Swe.Props.code_rules"
   ],
   "note": "Whole stages with wetting-drying and limiter, any straight mesh of counterclockwise wet triangles whose faces are covered once, internal and levee interfaces, land, tide, flow and function boundaries at the level of the lake, tables with exact row sums. Exactly for exact integration rules; for the tables of the program (p up to 10) the residual is bounded with the proved error 2^-45 per monomial."
  },
  {
   "property": "C70",
   "status": "proved",
   "theorems": [
    "Verif.Swe.Props.parallel_run",
    "Verif.Swe.Props.parallel_stage",
    "Verif.Swe.Props.parallel_rhs",
    "Verif.Swe.Props.parallel_limited",
    "Verif.Swe.Props.parallel_wd"
   ],
   "note": "In exact arithmetic (the order of summation differs). Message delivery is C25/C26; data prepared before the first stage are taken to be equal in both programs; the NaN check is not modelled."
  },
  {
   "property": "C55",
   "status": "proved",
   "theorems": [
    "Verif.Input.Props.settings_round_trip",
    "Verif.Input.Props.canonical_round_trip",
    "Verif.Input.Props.read_canonical"
   ],
   "note": "YAML nodes are trees of strings; printing and parsing of a scalar by yaml-cpp is a parameter assumed to round-trip."
  },
  {
   "property": "C71",
   "status": "proved",
   "theorems": [
    "Verif.Input.Props.parallel_input",
    "Verif.Input.Props.file_round_trip"
   ],
   "note": "Printing and parsing of scalars by yaml-cpp, and of dates by strptime and strftime, are parameters assumed to round-trip."
  },
  {
   "property": "C56",
   "status": "proved",
   "theorems": [
    "Verif.Bcis.Props.read_layout",
    "Verif.Bcis.Props.forcing_gp",
    "Verif.Bcis.Props.no_forcing",
    "Verif.Bcis.Props.levee_gp",
    "Verif.Bcis.Props.trailing_blank"
   ],
   "note": "Lines as lists of tokens, with any text after the numbers. A blank line after tide or flow data at the end of the file is undefined behaviour."
  },
  {
   "property": "C72",
   "status": "proved",
   "theorems": [
    "Verif.Swe.Props.weak_form",
    "Verif.Swe.Props.galerkin",
    "Verif.Swe.Props.code_symmetric",
    "Verif.Swe.Props.code_orthogonal",
    "Verif.Swe.Props.code_rules"
   ],
   "note": "Wet elements, internal interfaces, land, tide, flow and function boundaries, bottom friction and function source, projection factor 1. The integrals of the weak form are those of the rules of the program; galerkin uses the orthogonality of the basis."
  },
  {
   "property": "C73",
   "status": "proved",
   "theorems": [
    "Verif.Swe.Props.free_stream",
    "Verif.Swe.Props.stream_rhs",
    "Verif.Swe.Props.stream_residual",
    "Verif.Swe.Props.code_rules"
   ],
   "note": "Internal interfaces; land along the stream, tide, flow and function boundaries agreeing with the stream; wet elements; projection factor 1. Exactly for exact integration rules; with the tables of the program (p up to 10) a bound by their proved error 2^-45 per monomial."
  },
  {
   "property": "C74",
   "status": "proved",
   "theorems": [
    "Verif.Ehdg.Props.internal_pairs",
    "Verif.Ehdg.Props.stabilized",
    "Verif.Ehdg.Props.interface_conservative",
    "Verif.Ehdg.Props.hybrid_consistent",
    "Verif.Ehdg.Props.hybrid_opp"
   ],
   "note": "Exact numbers; straight faces (one normal per face)."
  },
  {
   "property": "C75",
   "status": "proved",
   "theorems": [
    "Verif.Ehdg.Props.land_flux_ehdg",
    "Verif.Ehdg.Props.distributed_messages",
    "Verif.Ehdg.Props.distributed_same"
   ],
   "note": "Exact numbers."
  },
  {
   "property": "C76",
   "status": "proved",
   "theorems": [
    "Verif.Ehdg.Props.ehdg_mass",
    "Verif.Ehdg.Props.rhs_total",
    "Verif.Swe.Props.water_integral",
    "Verif.Swe.Props.code_mass"
   ],
   "note": "Exact numbers; ordinary interfaces and land boundaries."
  },
  {
   "property": "C77",
   "status": "proved",
   "theorems": [
    "Verif.Ehdg.Props.ehdg_lake_at_rest",
    "Verif.Ehdg.Props.ehdg_free_stream",
    "Verif.Ehdg.Props.rest_rhs",
    "Verif.Ehdg.Props.rest_same",
    "Verif.Ehdg.Props.stream_same"
   ],
   "note": "Exact integration rules; with the tables of the program rest_same and stream_same carry over the bounds of C48 and C73. Fluxes of open boundaries are assumed physical; the Newton iteration for their traces is not modelled here."
  },
  {
   "property": "C78",
   "status": "partial",
   "theorems": [
    "Verif.Ehdg.Props.levee_undefined",
    "Verif.Ehdg.Props.projection_ignored",
    "Verif.Ehdg.Props.internal_pairs"
   ],
   "note": "False: nothing is computed at levees and the projection factor has no influence. Ordinary interfaces get their flux."
  },
  {
   "property": "C79",
   "status": "proved",
   "theorems": [
    "Verif.Edge.Props.flatten_reshape",
    "Verif.Edge.Props.flatten_reshape_col",
    "Verif.Edge.Props.turned_eq",
    "Verif.Edge.Props.sides_agree",
    "Verif.Edge.Props.ndof_rows",
    "Verif.Edge.Props.tables_fit"
   ],
   "note": "Exact numbers; a distributed edge between a submesh and itself would leave the orientation uninitialised."
  },
  {
   "property": "C80",
   "status": "proved",
   "theorems": [
    "Verif.Ehdg.Props.gap_derivative",
    "Verif.Ehdg.Props.newton_system",
    "Verif.Ehdg.Props.newton_pointwise",
    "Verif.Ehdg.Props.fixed_trace",
    "Verif.Ehdg.Props.characteristic",
    "Verif.Ehdg.Props.stream_kept",
    "Verif.Ehdg.Props.stream_passes",
    "Verif.Ehdg.Props.correct_change",
    "Verif.Ehdg.Props.matrix_apply",
    "Verif.Ehdg.Props.open_flux"
   ],
   "note": "Exact numbers; the linear solver is a parameter which solves regular systems."
  },
  {
   "property": "C81",
   "status": "partial",
   "theorems": [
    "Verif.Ehdg.Props.singular_at_rest",
    "Verif.Ehdg.Props.regular_partial"
   ],
   "note": "False for water that does not flow through the boundary. Proved for nonvanishing characteristic speeds."
  },
  {
   "property": "C82",
   "status": "proved",
   "theorems": [
    "Verif.Ihdg.Props.numbering",
    "Verif.Ihdg.Props.numbering_faces",
    "Verif.Ihdg.Props.condensed",
    "Verif.Ihdg.Props.condensed_complete"
   ],
   "note": "Serial program, Eigen backend (triplets are added up); inverse and sparse solver are parameters; exact numbers."
  },
  {
   "property": "C83",
   "status": "partial",
   "theorems": [
    "Verif.Ihdg.Props.newton_matrices_partial",
    "Verif.Ihdg.Props.source_ok_plain",
    "Verif.Ihdg.Props.source_ok_friction",
    "Verif.Swe.Props.gap_mean",
    "Verif.Swe.Props.abs_mean",
    "Verif.Ihdg.Props.open_boundary_wrong"
   ],
   "note": "False at tide and flow boundaries (open_boundary_wrong) and over sloping beds (C69). Proved for internal interfaces, land and function boundaries, wet traces, and elements where the derivative of the source is right. Where a characteristic speed vanishes, as at land, the entries are the means of the one-sided derivatives."
  },
  {
   "property": "C84",
   "status": "partial",
   "theorems": [
    "Verif.Ihdg.Props.forcing_partial",
    "Verif.Ihdg.Props.forcing_wrong",
    "Verif.Ihdg.Props.forcing_init",
    "Verif.Ihdg.Props.tide_exterior",
    "Verif.Ihdg.Props.flow_exterior"
   ],
   "note": "False of the code: phases in degrees are used as radians during the iteration. Proved if they are equal to the equilibrium arguments."
  },
  {
   "property": "C85",
   "status": "proved",
   "theorems": [
    "Verif.Ihdg.Props.newton_water",
    "Verif.Ihdg.Props.newton_fit",
    "Verif.Ihdg.Props.stage_water_order1",
    "Verif.Ihdg.Props.stage_water_order2",
    "Verif.Ihdg.Props.stage_water_twice",
    "Verif.Ihdg.Props.steps_water",
    "Verif.Ihdg.Props.init_fits"
   ],
   "note": "Exact numbers; the inverse of the element blocks and the global solver are exact where they succeed; no limiter between steps in steps_water (stage_water_twice covers a limited state)."
  },
  {
   "property": "C86",
   "status": "proved",
   "theorems": [
    "Verif.Ihdg.Props.fixed_solves",
    "Verif.Ihdg.Props.solution_fixed",
    "Verif.Ihdg.Props.stage_fixed"
   ],
   "note": "Exact numbers. Levees compute nothing in the code, their condition is a parameter."
  },
  {
   "property": "C87",
   "status": "partial",
   "theorems": [
    "Verif.Ihdg.Props.rest_steps",
    "Verif.Ihdg.Props.stream_steps",
    "Verif.Ihdg.Props.rest_friction",
    "Verif.Ihdg.Props.basin_step",
    "Verif.Ihdg.Props.channel_step"
   ],
   "note": "False of the code with bottom friction: in still water the derivative of the friction is 0/0 and the step yields no numbers (rest_friction). Proved for rest without friction and for streams, with exact integration rules, for all steps that succeed; steps that succeed are exhibited (basin_step, channel_step)."
  },
  {
   "property": "C88",
   "status": "proved",
   "theorems": [
    "Verif.Gn.Props.renumber_numbered",
    "Verif.Gn.Props.initial_numbered",
    "Verif.Gn.Props.renumber_off",
    "Verif.Gn.Props.dc_solved",
    "Verif.Gn.Props.dc_complete"
   ],
   "note": "Exact numbers and solvers; the matrix survives solve_sle, which is true of the Eigen back end only (the Blaze one overwrites it with its factors)."
  },
  {
   "property": "C89",
   "status": "partial",
   "theorems": [
    "Verif.Gn.Props.dc_total_partial",
    "Verif.Gn.Props.dc_isSome",
    "Verif.Gn.Props.dc_fails",
    "Verif.Gn.Props.dc_fails_pair",
    "Verif.Gn.Props.parallel_fails"
   ],
   "note": "False of the code: back substitution takes the part of the vector of every edge, also of dry ones, whose number is left from an earlier step and can be outside of the vector (dc_fails, dc_fails_pair). Proved when all edges have a wet side or wetting and drying is off."
  },
  {
   "property": "C90",
   "status": "partial",
   "theorems": [
    "Verif.Gn.Props.source_partial",
    "Verif.Gn.Props.source_defect",
    "Verif.Gn.Props.source_iff",
    "Verif.Gn.Props.source_wrong",
    "Verif.Gn.Props.c2_eq",
    "Verif.Gn.Props.c5_eq",
    "Verif.Gn.Props.correction_balance"
   ],
   "note": "False of the code: hx is computed as zex + bx where the depth is ze - b, so that its slope is zex - bx (source_wrong; source_defect has the exact difference, source_iff when it vanishes). Proved where bed or velocity is uniform in the relevant way (source_partial)."
  },
  {
   "property": "C91",
   "status": "proved",
   "theorems": [
    "Verif.Gn.Props.grad_near",
    "Verif.Gn.Props.grad_exact",
    "Verif.Gn.Props.grad_agrees",
    "Verif.Gn.Props.bath_exact",
    "Verif.Gn.Props.velocity_exact",
    "Verif.Gn.Props.level_exact"
   ],
   "note": "The projection variants of the derivatives; grad_near has the error for rules of accuracy eps, the others take exact rules; a case with rules exact for cubics is in GnPoly."
  },
  {
   "property": "C92",
   "status": "proved",
   "theorems": [
    "Verif.Gn.Props.weak_iff",
    "Verif.Gn.Props.correction_weak",
    "Verif.Gn.Props.consistent",
    "Verif.Gn.Props.parts",
    "Verif.Gn.Props.smooth_exists"
   ],
   "note": "weak_iff, correction_weak: any rules with symmetric weights and edge spaces that fit, meshes without levees (whose kernels are empty), exact solvers. consistent: exact rules, everything wet; a case over a sloping bed is in GnConsistentCase."
  },
  {
   "property": "C93",
   "status": "proved",
   "theorems": [
    "Verif.Gn.Props.correction_levels",
    "Verif.Gn.Props.strang_water",
    "Verif.Gn.Props.still_solution",
    "Verif.Gn.Props.still_correction",
    "Verif.Gn.Props.correction_rest",
    "Verif.Gn.Props.correction_stream",
    "Verif.Gn.Props.strang_rest",
    "Verif.Gn.Props.strang_stream",
    "Verif.Gn.Props.stream_runs",
    "Verif.Gn.Props.strang_runs"
   ],
   "note": "correction_levels, strang_water: any solvers. Rest and stream: exact rules, solvers that return zero for a zero right-hand side; stream_runs and strang_runs also show that the run succeeds."
  },
  {
   "property": "C94",
   "status": "partial",
   "theorems": [
    "Verif.Gn.Props.energy",
    "Verif.Gn.Props.bounded",
    "Verif.Gn.Props.solvable_partial",
    "Verif.Gn.Props.flat_unique",
    "Verif.Gn.Props.dc_regular",
    "Verif.Gn.Props.definite_exact",
    "Verif.Gn.Props.levee_singular",
    "Verif.Gn.Props.levee_fails"
   ],
   "note": "False with levees: their kernels are empty functions, so the rows of a levee in the global matrix are zero (levee_singular, levee_fails). Without levees existence, uniqueness and the bound are proved at constant depth over a flat bed; varying depth and bed are missing."
  },
  {
   "property": "C95",
   "status": "proved",
   "theorems": [
    "Verif.Gn.Props.renumberP_numbered",
    "Verif.Gn.Props.initialP_numbered",
    "Verif.Gn.Props.whole_numbered",
    "Verif.Gn.Props.parallel_solved",
    "Verif.Gn.Props.parallel_serial",
    "Verif.Gn.Props.pairP_solves"
   ],
   "note": "For the blocks of the elements and edges, of which the ranks at a cut edge hold summands. A step that fails (C89, parallel_fails) is excluded by the hypothesis that the code returns."
  },
  {
   "property": "C96",
   "status": "proved",
   "theorems": [
    "Verif.Gn.gradP_eq",
    "Verif.Gn.Props.derivs_ranks"
   ],
   "note": "Projected derivatives (the default method). Cut interfaces have equal degrees, opposite edge vectors."
  },
  {
   "property": "C97",
   "status": "proved",
   "theorems": [
    "Verif.Gn.Props.blocks_ranks",
    "Verif.Gn.Props.ranks_shared",
    "Verif.Gn.Props.hats_ranks",
    "Verif.Gn.Props.ranks_solved",
    "Verif.Gn.Props.stage_ranks",
    "Verif.Gn.Props.stages_ranks",
    "Verif.Gn.Props.parallel_regular",
    "Verif.Gn.Props.flat_solvable",
    "Verif.Gn.Props.flat_ranks",
    "Verif.Gn.Props.two_ranked"
   ],
   "note": "Conditional on both runs coming to their end and on the equations having one solution at most, which flat_determined shows at constant depth over a flat bed. In the serial run the cut interfaces are oriented from the lower to the higher submesh."
  },
  {
   "property": "C98",
   "status": "proved",
   "theorems": [
    "Verif.Ehdg.Props.ehdg_parallel_rhs",
    "Verif.Ehdg.Props.ehdg_parallel_run",
    "Verif.Ehdg.Props.two_meets"
   ],
   "note": "Cut edges carry no levee (the flux of distributed levees is not implemented in the program), have equal degrees on both sides and opposite edge vectors."
  },
  {
   "property": "C99",
   "status": "proved",
   "theorems": [
    "Verif.Gn.Props.strang_ranks",
    "Verif.Gn.Props.strang_run_ranks",
    "Verif.Gn.Props.stages_total",
    "Verif.Gn.Props.strang_total",
    "Verif.Gn.Props.uniform_found",
    "Verif.Gn.Props.stream_ranks",
    "Verif.Gn.Props.chan_ranked"
   ],
   "note": "Conditional on the equations of the correction having one solution at most in every stage (C94)."
  },
  {
   "property": "C100",
   "status": "proved",
   "theorems": [
    "Verif.Ihdg.Props.numbers_all",
    "Verif.Ihdg.Props.numberP_numbered",
    "Verif.Ihdg.Props.parallel_condensed",
    "Verif.Ihdg.Props.parallel_total",
    "Verif.Ihdg.Props.parallel_serial",
    "Verif.Ihdg.Props.sum_whole",
    "Verif.Ihdg.Props.total_eq",
    "Verif.Ihdg.Props.twoEltsP_shared",
    "Verif.Ihdg.Props.demo_gathers"
   ],
   "note": "Agreement with the serial program where the linear system has one solution (C81, C83 treat its regularity)."
  },
  {
   "property": "C101",
   "status": "proved",
   "theorems": [
    "Verif.Ihdg.Props.newton_ranks",
    "Verif.Ihdg.Props.iterate_ranks",
    "Verif.Ihdg.Props.stage_ranks",
    "Verif.Ihdg.Props.steps_ranks",
    "Verif.Ihdg.Props.blocks_gathered",
    "Verif.Ihdg.Props.prev_ranks",
    "Verif.Ihdg.Props.init_cut",
    "Verif.Ihdg.Props.message_decodes",
    "Verif.Ihdg.Props.message_number",
    "Verif.Ihdg.Props.lake_ranks",
    "Verif.Ihdg.Props.two_clustered"
   ],
   "note": "Where the linearized equations have one solution (C102 for still water); cut edges carry no levee, equal degrees on both sides."
  },
  {
   "property": "C102",
   "status": "proved",
   "theorems": [
    "Verif.Ihdg.Props.energy",
    "Verif.Ihdg.Props.rest_sole",
    "Verif.Ihdg.Props.rest_local",
    "Verif.Ihdg.Props.rest_newton",
    "Verif.Ihdg.Props.parts_exact",
    "Verif.Ihdg.Props.definite_exact",
    "Verif.Ihdg.Props.lake_still",
    "Verif.Ihdg.Props.lake_newton",
    "Verif.Ihdg.Props.lake_stage",
    "Verif.Ihdg.Props.lake_steps",
    "Verif.Ihdg.Props.lake_closed",
    "Verif.Ihdg.Props.lake_mesh"
   ],
   "note": "Exact rules and exact numbers; no bottom friction (with it the derivative of the source divides zero by zero in still water, C87)."
  },
  {
   "property": "C103",
   "status": "proved",
   "theorems": [
    "Verif.Gn.Props.gg_mean",
    "Verif.Gn.Props.ggHat_cont",
    "Verif.Gn.Props.ggCut_cont",
    "Verif.Gn.Props.gg_quadratic",
    "Verif.Gn.Props.pCols_iff",
    "Verif.Gn.Props.lsq_affine",
    "Verif.Gn.Props.avg_mean",
    "Verif.Gn.Props.recon_const",
    "Verif.Gn.Props.ls_affine",
    "Verif.Gn.Props.int_near",
    "Verif.Gn.Props.int_affine",
    "Verif.Gn.Props.gg_exact_affine",
    "Verif.Gn.Props.ls_exact_affine",
    "Verif.Gn.Props.dze_quadratic",
    "Verif.Gn.Props.avg_cont",
    "Verif.Gn.Props.ddbath_ranks_avg",
    "Verif.Gn.Props.ddbath_ranks_differ",
    "Verif.Gn.Props.dubiner_linear"
   ],
   "note": "Exact numbers and rules. Interpolation is exact up to coefficients below 100 eps that the code sets to zero (int_near)."
  },
  {
   "property": "C104",
   "status": "partial",
   "theorems": [
    "Verif.Gn.Props.recon_ranks",
    "Verif.Gn.Props.lsq_ranks",
    "Verif.Gn.Props.gg_ranks",
    "Verif.Gn.Props.ggHat_ranks",
    "Verif.Gn.Props.bath_ls_ranks",
    "Verif.Gn.Props.bath_gg_ranks",
    "Verif.Gn.Props.bath_gg_ranks_avg",
    "Verif.Gn.Props.seen_gg",
    "Verif.Gn.Props.seen_ls",
    "Verif.Gn.Props.seen_avg",
    "Verif.Gn.Props.avg_stale",
    "Verif.Gn.Props.avg_never",
    "Verif.Gn.Props.avg_loses_slope",
    "Verif.Gn.Props.pre_send_singular",
    "Verif.Gn.Props.four_ranks_singular",
    "Verif.Gn.Props.two_sides_singular",
    "Verif.Gn.Props.interp_ranks",
    "Verif.Gn.Props.interp_last",
    "Verif.Gn.Props.interp_use",
    "Verif.Gn.Props.ready_ranks",
    "Verif.Gn.Props.interp_differs",
    "Verif.Gn.Props.recon_differs"
   ],
   "note": "The property is false of the code. Proved: equality for interpolation and least squares in all stages and for averages at nodes in stage 0, of bathymetry by least squares and by Green-Gauss with averages, and of the data of the preprocessor under conditions. False: with averages at nodes the ranks assign slot 0, so that later stages read what the array held before (avg_stale, avg_never, avg_loses_slope); an element whose sides are all cut has a singular matrix before the messages (pre_send_singular); interpolation may use another pair of neighbours (interp_last, recon_differs); second derivatives of the bathymetry by Green-Gauss at cuts (C103)."
  },
  {
   "property": "C105",
   "status": "proved",
   "theorems": [
    "Verif.Swe.Props.projectF_normal",
    "Verif.Swe.Props.projectF_exact",
    "Verif.Swe.Props.bath_between",
    "Verif.Swe.Props.bath_at_nodes",
    "Verif.Swe.Props.bath_slope",
    "Verif.Swe.Props.bath_continuous",
    "Verif.Swe.Props.factor_at",
    "Verif.Swe.Props.factor_sides",
    "Verif.Swe.Props.init_wet",
    "Verif.Swe.Props.init_uniform",
    "Verif.Swe.Props.init_depth",
    "Verif.Swe.Props.rest_input",
    "Verif.Swe.Props.lake_from_input",
    "Verif.Swe.Props.degree_zero_bath"
   ],
   "note": "For exact rules and an orthogonal basis (C37, C41). Degree zero is excluded by the statement: there the bathymetry is the mean and jumps (degree_zero_bath)."
  },
  {
   "property": "C106",
   "status": "partial",
   "theorems": [
    "Verif.Swe.Props.weight_constant",
    "Verif.Swe.Props.weight_default",
    "Verif.Swe.Props.weight_function",
    "Verif.Swe.Props.weight_default_wrong",
    "Verif.Swe.Props.weight_function_wrong"
   ],
   "note": "The property is false of the code. Proved: for constant initial conditions wet elements have the weight of wet ones, and dry ones that of dry ones up to the threshold. False: with default initial conditions every element counts as wet (weight_default_wrong), and an initial function is evaluated at coordinates that have not been projected (weight_function_wrong)."
  },
  {
   "property": "C107",
   "status": "proved",
   "theorems": [
    "Verif.Swe.Props.start_file",
    "Verif.Swe.Props.start_sound",
    "Verif.Swe.Props.start_bounds",
    "Verif.Swe.Props.forced_bounds",
    "Verif.Swe.Props.program_starts",
    "Verif.Swe.Props.sound_grad",
    "Verif.Swe.Props.sound_fits",
    "Verif.Swe.Props.sound_stream",
    "Verif.Swe.Props.quiet_start",
    "Verif.Swe.Props.program_basin",
    "Verif.Swe.Props.program_lake",
    "Verif.Swe.Props.generated_good",
    "Verif.Swe.Props.generated_lake",
    "Verif.Swe.Props.clockwise_program",
    "Verif.Swe.Props.levee_mesh"
   ],
   "note": "The theorems on runs exclude levees; levee_mesh says which levees the mesh has and which data they carry (their pairing is C15). clockwise_program shows that counterclockwise elements are needed: the code does not check it."
  },
  {
   "property": "C108",
   "status": "partial",
   "theorems": [
    "Verif.Swe.Props.sphere_orientation",
    "Verif.Swe.Props.sphere_inverse",
    "Verif.Swe.Props.sphere_factor",
    "Verif.Swe.Props.sphere_good",
    "Verif.Swe.Props.sphere_divergence",
    "Verif.Swe.Props.north_converges",
    "Verif.Swe.Props.north_steady",
    "Verif.Swe.Props.north_wrong"
   ],
   "note": "The property is false of the code: sphere_divergence shows that the scaled derivatives are the divergence on the sphere but for the term with the tangent of the latitude over R, which the program lacks; north_wrong is a converging stream that the program holds steady. Projection, orientation and factor are proved as stated."
  },
  {
   "property": "C109",
   "status": "partial",
   "theorems": [
    "Verif.Swe.Props.rest_sphere",
    "Verif.Swe.Props.lake_sphere_partial",
    "Verif.Swe.Props.program_sphere_partial",
    "Verif.Swe.Props.level_wrong"
   ],
   "note": "The property is false of the code: the exterior flux in LLF_flux lacks the factor, so that a lake at a level other than zero begins to move (level_wrong, a flat bed). Proved for level zero, for all bathymetries and from the file on."
  },
  {
   "property": "C110",
   "status": "partial",
   "theorems": [
    "Verif.Output.Props.vtk_picture",
    "Verif.Output.Props.vtu_picture",
    "Verif.Output.Props.vtu_unreadable",
    "Verif.Output.Props.dry_unreadable",
    "Verif.Output.Props.six_digits_collapse"
   ],
   "note": "The property is false of the code in two ways: the VTU file contains nan where the depth is zero and cannot be read (vtu_unreadable, exactly then), and coordinates are written with six digits, so that triangles far from the origin collapse (six_digits_collapse). For all printers and states the rest is proved: vtk_picture and, without points of depth zero, vtu_picture."
  },
  {
   "property": "C111",
   "status": "proved",
   "theorems": [
    "Verif.Output.Props.modal_history",
    "Verif.Output.Props.modalRun_eq"
   ],
   "note": "For output frequencies above zero; with frequency zero the program computes a remainder by zero."
  },
  {
   "property": "C112",
   "status": "proved",
   "theorems": [
    "Verif.Swe.Props.reordered_run",
    "Verif.Swe.Props.reordered_rhs",
    "Verif.Swe.Props.reordered_limited",
    "Verif.Swe.Props.swap_matters"
   ],
   "note": "Cartesian coordinates, bathymetry equal on both sides at the Gauss points of ordinary interfaces; swap_matters shows that the latter is needed."
  },
  {
   "property": "C113",
   "status": "proved",
   "theorems": [
    "Verif.Swe.Props.run_moved",
    "Verif.Swe.Props.rhs_moved",
    "Verif.Swe.Props.wetDry_moved",
    "Verif.Swe.Props.geom_moved",
    "Verif.Swe.Props.limiter_turns_not"
   ],
   "note": "The property leaves the slope limiter out; limiter_turns_not shows that it must."
  },
  {
   "property": "C114",
   "status": "partial",
   "theorems": [
    "Verif.Swe.Props.code_residual",
    "Verif.Swe.Props.code_report",
    "Verif.Swe.Props.ranks_report",
    "Verif.Swe.Props.weights_negative",
    "Verif.Swe.Props.report_nan"
   ],
   "note": "False of the code: the rule used has negative weights and for some true solutions the sum of squares is negative and nan is printed (report_nan). Proved for true solutions that are polynomials of degree at most ten on each element, up to the rounding of the tables; equality of the serial and the parallel report without restriction."
  },
  {
   "property": "C115",
   "status": "proved",
   "theorems": [
    "Verif.Swe.Props.steps_balance",
    "Verif.Swe.Props.rhs_balance",
    "Verif.Swe.Props.rate_balance",
    "Verif.Swe.Props.butcher_table"
   ],
   "note": "inflow spells out the mass flux through boundaries and the function source."
  },
  {
   "property": "C116",
   "status": "partial",
   "theorems": [
    "Verif.Swe.Props.flow_rate",
    "Verif.Swe.Props.flow_rate_iff",
    "Verif.Swe.Props.flow_half"
   ],
   "note": "False of the code: what passes is the mean of the prescribed discharge and that of the state at the boundary, hence the prescribed one exactly if the state has it already; for still water the half."
  },
  {
   "property": "C117",
   "status": "partial",
   "theorems": [
    "Verif.Swe.Props.run_scaled_partial",
    "Verif.Swe.Props.run_units",
    "Verif.Swe.Props.clear_same",
    "Verif.Swe.Props.threshold_scaled",
    "Verif.Swe.Props.dry_flux_units",
    "Verif.Swe.Props.weir_units"
   ],
   "note": "False of the code: the tolerances 1e-12 of the flux between a wet and a dry element and 0.01 of heights over a weir have no unit; two theorems exhibit cases. It holds for every run on which neither tolerance is decisive, in particular with all elements wet and no weirs."
  },
  {
   "property": "C118",
   "status": "proved",
   "theorems": [
    "Verif.Swe.Props.consistent_weak",
    "Verif.Swe.Props.consistent_rate",
    "Verif.Swe.Props.steady_flow"
   ],
   "note": ""
  },
  {
   "property": "C119",
   "status": "proved",
   "theorems": [
    "Verif.Swe.Props.domain_of_dependence",
    "Verif.Ehdg.Props.ehdg_domain"
   ],
   "note": ""
  },
  {
   "property": "C120",
   "status": "proved",
   "theorems": [
    "Verif.Swe.Props.storage_immaterial",
    "Verif.Swe.Props.restart",
    "Verif.Ehdg.Props.ehdg_storage"
   ],
   "note": ""
  },
  {
   "property": "C121",
   "status": "proved",
   "theorems": [
    "Verif.Ehdg.Props.flow_rhs",
    "Verif.Ehdg.Props.ehdg_weak",
    "Verif.Ehdg.Props.ehdg_rate",
    "Verif.Ehdg.Props.ehdg_steady",
    "Verif.Ehdg.Props.flow_open"
   ],
   "note": ""
  },
  {
   "property": "C122",
   "status": "proved",
   "theorems": [
    "Verif.Ehdg.Props.ehdg_balance",
    "Verif.Ehdg.Props.ehdg_rate_balance",
    "Verif.Ehdg.Props.ehdg_steps_balance",
    "Verif.Swe.Props.steps_with"
   ],
   "note": ""
  },
  {
   "property": "C123",
   "status": "proved",
   "theorems": [
    "Verif.Ehdg.Props.pair_swap",
    "Verif.Ehdg.Props.ehdg_reordered_rhs",
    "Verif.Ehdg.Props.ehdg_reordered_run"
   ],
   "note": ""
  },
  {
   "property": "C124",
   "status": "proved",
   "theorems": [
    "Verif.Lifetime.Props.no_dangling",
    "Verif.Lifetime.Props.step_spec",
    "Verif.Lifetime.Props.access_ok"
   ],
   "note": ""
  },
  {
   "property": "C125",
   "status": "partial",
   "theorems": [
    "Verif.Nan.Props.stage_clean",
    "Verif.Nan.Props.run_clean",
    "Verif.Nan.Props.noticed_without",
    "Verif.Nan.Props.noticed_partial",
    "Verif.Nan.Props.nan_erased",
    "Verif.Nan.Props.elevation_kept",
    "Verif.Nan.Props.wd_bounds",
    "Verif.Nan.Props.wd_some"
   ],
   "note": "False of the code with wetting and drying: a NaN in the discharge of an element that dries is replaced by zero and the run goes on (nan_erased). Proved: no state handed on has a NaN; without wetting and drying every NaN is noticed; with it every NaN in the elevation, and in the discharge of wet elements deep enough at all vertices; the kernel stays within its arrays for all doubles. Infinities and the limiter are not modelled here."
  },
  {
   "property": "C126",
   "status": "proved",
   "theorems": [
    "Verif.Ehdg.Props.ehdg_turned",
    "Verif.Ehdg.Props.rhs_moved",
    "Verif.Ehdg.Props.hybrid_moved",
    "Verif.Ehdg.Props.pair_moved",
    "Verif.Ehdg.Props.tau_moved"
   ],
   "note": "All runs without limiter; the fluxes of open boundaries and levees are parameters that must be turned too. Example: two triangles turned by a Pythagorean angle."
  },
  {
   "property": "C127",
   "status": "proved",
   "theorems": [
    "Verif.Examples.Props.Manufactured.manufactured_solves",
    "Verif.Examples.Props.Manufactured.residual_unique",
    "Verif.Examples.Props.flux_textbook",
    "Verif.Examples.Props.source_textbook",
    "Verif.Examples.Props.Manufactured.generator_bed"
   ],
   "note": "Derivatives in the sense of analysis, over the real numbers. With the bed 1.5 left in the mesh generator it is not a solution (generator_bed); the test script overwrites that file."
  },
  {
   "property": "C128",
   "status": "partial",
   "theorems": [
    "Verif.Examples.Props.Bowl.initial",
    "Verif.Examples.Props.Bowl.bowl_solves_partial",
    "Verif.Examples.Props.Bowl.reaches_wall"
   ],
   "note": "Proved: the initial data start an exact oscillation that satisfies the equations wherever there is water. False: within the duration of the run this oscillation has water and discharge at the walls of the basin (reaches_wall)."
  },
  {
   "property": "C129",
   "status": "partial",
   "theorems": [
    "Verif.Examples.Props.Solitary.solitary_solves_partial",
    "Verif.Examples.Props.Solitary.not_with_alpha",
    "Verif.Examples.Props.Solitary.remains_iff",
    "Verif.Examples.Props.Solitary.correction_textbook",
    "Verif.Examples.Props.Solitary.dcSource_textbook"
   ],
   "note": "False of the code: with alpha = 1.159, the only value the program has, the wave does not satisfy the equations (not_with_alpha). Proved with alpha = 1."
  },
  {
   "property": "C130",
   "status": "partial",
   "theorems": [
    "Verif.Compare.Props.compare_partial",
    "Verif.Compare.Props.accepts_mantissas",
    "Verif.Compare.Props.needs_errors",
    "Verif.Compare.Props.power_dropped",
    "Verif.Compare.Props.zero_rejected"
   ],
   "note": "False of the script: it compares the digits before the power of ten and accepts 1.5e-05 beside 1.5e+20 (power_dropped). Proved for errors printed with the same power or without."
  },
  {
   "property": "C131",
   "status": "proved",
   "theorems": [
    "Verif.Schedule.Props.sim_safe",
    "Verif.Schedule.Props.sim_result",
    "Verif.Schedule.Props.sim_ends",
    "Verif.Schedule.Props.never_ub",
    "Verif.Schedule.Props.stepper_alone",
    "Verif.Schedule.Props.tick_master",
    "Verif.Schedule.Props.never_stuck",
    "Verif.Schedule.Props.same_result",
    "Verif.Schedule.Props.same_clocks",
    "Verif.Schedule.Props.always_ends",
    "Verif.Schedule.Props.completes",
    "Verif.Schedule.Props.lock_plain",
    "Verif.Schedule.Props.own_sim",
    "Verif.Schedule.Props.piece_run",
    "Verif.Schedule.Props.one_loop_stuck",
    "Verif.Schedule.Props.no_barrier_race"
   ],
   "note": "Proved for RKDG and EHDG. one_loop_stuck and no_barrier_race show that the conditions on the text of the program are needed."
  },
  {
   "property": "C132",
   "status": "partial",
   "theorems": [
    "Verif.Schedule.Props.gn_resize_race",
    "Verif.Schedule.Props.gn_resize_own_partial",
    "Verif.Schedule.Props.sim_no_race_partial",
    "Verif.Schedule.Props.no_race",
    "Verif.Schedule.Props.all_units_race",
    "Verif.Schedule.Props.piece_gnPre"
   ],
   "note": "False of the Green-Naghdi preprocessor, in which every thread resizes the elements of all units of the rank (gn_resize_race). Proved for RKDG and EHDG of the shallow-water equations; the implicit step is covered by C136 (no_race of the rounds), the Green-Naghdi step by C138 (gn_safe)."
  },
  {
   "property": "C133",
   "status": "proved",
   "theorems": [
    "Verif.Swe.Props.schedules_serial",
    "Verif.Swe.Props.schedules_holds",
    "Verif.Swe.Props.schedules_end",
    "Verif.Swe.Props.unit_run",
    "Verif.Swe.Props.unit_stage",
    "Verif.Swe.Props.unit_after",
    "Verif.Swe.Props.unit_wd",
    "Verif.Swe.Props.unit_sl",
    "Verif.Swe.Props.shared_of"
   ],
   "note": "Proved for RKDG with exact arithmetic. The units hold only messages for the elements of others; which units talk to each other is a parameter (symmetric and covering the distributed faces)."
  },
  {
   "property": "C134",
   "status": "proved",
   "theorems": [
    "Verif.Ehdg.Props.ehdg_schedules_serial",
    "Verif.Ehdg.Props.ehdg_schedules_holds",
    "Verif.Ehdg.Props.ehdg_schedules_end",
    "Verif.Ehdg.Props.ehdg_unit_run",
    "Verif.Ehdg.Props.ehdg_unit_stage",
    "Verif.Ehdg.Props.ehdg_unit_after",
    "Verif.Ehdg.Props.ehdg_unit_pre",
    "Verif.Ehdg.Props.with_succeeds"
   ],
   "note": "Proved with exact arithmetic; cut edges carry no levee, have equal degrees on both sides and opposite edge vectors (as in C98). The fluxes of open boundaries are given."
  },
  {
   "property": "C135",
   "status": "proved",
   "theorems": [
    "Verif.Swe.Props.threads_water",
    "Verif.Swe.Props.threads_water_ehdg",
    "Verif.Swe.Props.threads_rest",
    "Verif.Swe.Props.threads_rest_ehdg",
    "Verif.Swe.Props.units_water",
    "Verif.Swe.Props.two_division"
   ],
   "note": "Proved with exact arithmetic for RKDG and EHDG; whether an element is emptied is read off the serial run."
  },
  {
   "property": "C136",
   "status": "proved",
   "theorems": [
    "Verif.Rounds.Props.newton_schedules",
    "Verif.Rounds.Props.newton_ends",
    "Verif.Rounds.Props.no_race",
    "Verif.Rounds.Props.no_deadlock",
    "Verif.Rounds.Props.same_rounds",
    "Verif.Rounds.Props.rounds_result",
    "Verif.Rounds.Props.rounds_end",
    "Verif.Rounds.Props.newton_agrees",
    "Verif.Rounds.Props.selfish_deadlock"
   ],
   "note": "The slope limiter (messages between units; C139 has it) and the abort after a NaN are left out; a collective PETSc call is complete when all ranks have started it."
  },
  {
   "property": "C137",
   "status": "proved",
   "theorems": [
    "Verif.Ihdg.Props.threads_serial",
    "Verif.Ihdg.Props.threads_ranks",
    "Verif.Ihdg.Props.lake_threads",
    "Verif.Ihdg.Props.threads_water",
    "Verif.Ihdg.Props.run_sub",
    "Verif.Ihdg.Props.loop_sub",
    "Verif.Ihdg.Props.iteration_sub",
    "Verif.Ihdg.Props.system_sub",
    "Verif.Ihdg.Props.blocks_sub",
    "Verif.Ihdg.Props.prev_sub",
    "Verif.Ihdg.Props.back_sub"
   ],
   "note": "With C101 and C136: where the linearized equations have one solution; cut edges carry no levee, equal degrees on both sides; without the slope limiter and the abort after a NaN."
  },
  {
   "property": "C138",
   "status": "proved",
   "theorems": [
    "Verif.GnSchedule.Props.gn_safe",
    "Verif.GnSchedule.Props.gn_result",
    "Verif.GnSchedule.Props.gn_ends",
    "Verif.GnSchedule.Props.gn_meet",
    "Verif.GnSchedule.Props.meet_safe",
    "Verif.GnSchedule.Props.meet_ends",
    "Verif.GnSchedule.Props.meet_result",
    "Verif.GnSchedule.Props.safe",
    "Verif.GnSchedule.Props.settled",
    "Verif.GnSchedule.Props.result",
    "Verif.GnSchedule.Props.always_ends",
    "Verif.GnSchedule.Props.can_end",
    "Verif.GnSchedule.Props.fine_run"
   ],
   "note": "For the steps, with the collective operations in one move (gn_safe, gn_result, gn_ends) and with masters that hand in and come back at times of their own (gn_meet); the kernels are parameters; without the abort after a NaN."
  },
  {
   "property": "C139",
   "status": "proved",
   "theorems": [
    "Verif.IhdgSchedule.Props.implicit_safe",
    "Verif.IhdgSchedule.Props.implicit_result",
    "Verif.IhdgSchedule.Props.implicit_ends",
    "Verif.IhdgSchedule.Props.prog_safe",
    "Verif.IhdgSchedule.Props.prog_settled",
    "Verif.IhdgSchedule.Props.prog_result",
    "Verif.IhdgSchedule.Props.prog_ends",
    "Verif.IhdgSchedule.Props.neat_steps"
   ],
   "note": "What the masters do together at a solve, with the decision, is one move (C136 has the barriers, contributions and returns one by one, without the limiter); the kernels are parameters; without the abort after a NaN."
  }
 ]
}