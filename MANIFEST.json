{
 "claims": [
  {
   "property": "C01",
   "status": "proved",
   "theorems": [
    "Pin.C01_tables",
    "Pin.C01_addJoint"
   ],
   "note": "every reachable construction state, accepted and rejected calls interleaved; mimic joints must mimic an existing joint"
  },
  {
   "property": "C02",
   "status": "proved",
   "theorems": [
    "Pin.C02_supports",
    "Pin.C02_subtrees",
    "Pin.C02_universe_counterexample"
   ],
   "note": "ancestor relation is a separate inductive definition; the universe is not in its own subtree (C02_universe_counterexample), so subtrees are characterised for joints >= 1"
  },
  {
   "property": "C03",
   "status": "partial",
   "theorems": [
    "Pin.C03_addJoint_rejected",
    "Pin.C03_frames_rejected",
    "Pin.C03_name_lookup",
    "Pin.C03_mimic_counterexample"
   ],
   "note": "proved for every call except a mimic joint whose mimicked joint does not exist yet: there the code throws after changing the model (C03_mimic_counterexample)"
  },
  {
   "property": "C04",
   "status": "proved",
   "theorems": [
    "Pin.C04_frames_unique",
    "Pin.C04_getFrameId",
    "Pin.C04_addFrame",
    "Pin.C04_multi_mask_counterexample",
    "Pin.C04_inertia_conserved"
   ],
   "note": "single-bit frame types (the FrameType enum); masks of several bits can throw (C04_multi_mask_counterexample); inertia conservation for masses that are 0 or at least eps, outside of which operator+ itself is wrong (C08_add_degenerate_counterexample)"
  },
  {
   "property": "C05",
   "status": "proved",
   "theorems": [
    "Pin.C05_group",
    "Pin.C05_points",
    "Pin.C05_motion_field",
    "Pin.C05_force_moment",
    "Pin.C05_actions",
    "Pin.C05_inertia"
   ],
   "note": "over any commutative ring"
  },
  {
   "property": "C06",
   "status": "proved",
   "theorems": [
    "Pin.C06_action_matrices",
    "Pin.C06_matrix_algebra",
    "Pin.C06_motion_matrices"
   ],
   "note": "over any commutative ring"
  },
  {
   "property": "C07",
   "status": "proved",
   "theorems": [
    "Pin.C07_power_invariant",
    "Pin.C07_power_meaning",
    "Pin.C07_lie"
   ],
   "note": "over any commutative ring"
  },
  {
   "property": "C08",
   "status": "proved",
   "theorems": [
    "Pin.C08_momentum_meaning",
    "Pin.C08_matrix",
    "Pin.C08_act",
    "Pin.C08_brackets",
    "Pin.C08_SE3actOn",
    "Pin.C08_inverse",
    "Pin.C08_add",
    "Pin.C08_sub",
    "Pin.C08_add_sub",
    "Pin.C08_add_degenerate_counterexample",
    "Pin.C08_vtiv_nonneg"
   ],
   "note": "operator+/- proved when the summed mass is 0 or at least eps; below eps the code is wrong (C08_add_degenerate_counterexample)"
  },
  {
   "property": "C09",
   "status": "proved",
   "theorems": [
    "Pin.C09_inertia_roundtrip",
    "Pin.C09_parameters_roundtrip",
    "Pin.C09_parameters",
    "Pin.C09_pseudo_roundtrip",
    "Pin.C09_pseudo_roundtrip",
    "Pin.C09_inertia_pseudo",
    "Pin.C09_pseudo_physical",
    "Pin.C09_logCholesky",
    "Pin.C09_logCholesky_jacobian"
   ],
   "note": "Round trips for every non-zero mass; positive definite pseudo-inertias give physical inertias; log-Cholesky vectors over the reals always give them, and calculateJacobian is the derivative."
  },
  {
   "property": "C10",
   "status": "proved",
   "theorems": [
    "Pin.C10_packed",
    "Pin.C10_inverse",
    "Pin.C10_rotate_reflection_counterexample"
   ],
   "note": "rotate proved for rotations; for reflections the code differs from R S R^T (C10_rotate_reflection_counterexample)"
  },
  {
   "property": "C11",
   "status": "proved",
   "theorems": [
    "Pin.C11_chain",
    "Pin.C11_placements",
    "Pin.C11_updateGlobalPlacements",
    "Pin.C11_velocity",
    "Pin.C11_velocity_recursion",
    "Pin.C11_acceleration",
    "Pin.C11_classicalAcceleration",
    "Pin.C11_velocity_is_derivative",
    "Pin.C11_relativePlacement"
   ],
   "note": "three overloads of forwardKinematics; velocities and accelerations are also shown to be true derivatives (same code over dual numbers)"
  },
  {
   "property": "C12",
   "status": "proved",
   "theorems": [
    "Pin.C12_affine",
    "Pin.C12_inverse_dynamics",
    "Pin.C12_reachable",
    "Pin.C12_order_counterexample"
   ],
   "note": "models without mimic joint accepted by CRBAChecker (depth-first order; C12_order_counterexample otherwise); C12_affine covers mimic joints and any order"
  },
  {
   "property": "C13",
   "status": "partial",
   "theorems": [
    "Pin.C13_entries",
    "Pin.C13_branch_zero",
    "Pin.C13_quadratic",
    "Pin.C13_psd",
    "Pin.C13_pd",
    "Pin.C13_kinetic_partial",
    "Pin.C13_kinetic_unaligned_counterexample"
   ],
   "note": "matrix: proved. computeKineticEnergy = 1/2 v^T M v is proved when every joint type stores joint_v; false for revolute/helical unaligned joints with armature (C13_kinetic_unaligned_counterexample)"
  },
  {
   "property": "C14",
   "status": "proved",
   "theorems": [
    "Pin.C14_conventions"
   ],
   "note": "whole matrix, models without mimic joint accepted by CRBAChecker"
  },
  {
   "property": "C15",
   "status": "proved",
   "theorems": [
    "Pin.C15_fext",
    "Pin.C15_static",
    "Pin.C15_gravity",
    "Pin.C15_bias_at_rest"
   ],
   "note": "for every joint type whose bias vanishes at rest (C15_bias_at_rest: all kinematically consistent joints)"
  },
  {
   "property": "C16",
   "status": "proved",
   "theorems": [
    "Pin.C16_forward_inverse",
    "Pin.C16_inverse_forward",
    "Pin.C16_conventions",
    "Pin.C16_blocks",
    "Pin.C16_regular_of_definite",
    "Pin.C16_regular_physical",
    "Pin.C16_regular_armature",
    "Pin.C16_local_acceleration_counterexample"
   ],
   "note": "Both conventions, with and without external forces, for every packed tree, every joint type and every prior content of data. Hypothesis Regular is the invertibility of the joint-space blocks; C16_blocks shows it is the one of data.joints[i].StU; C16_regular_* show it holds for physical models. The LLT-based inversion of the block is modelled by the exact inverse. C16_local_acceleration_counterexample: the side output data.a of the local convention uses a placement that is never computed."
  },
  {
   "property": "C17",
   "status": "proved",
   "theorems": [
    "Pin.C17_untouched",
    "Pin.C17_frame",
    "Pin.C17_joint",
    "Pin.C17_stored",
    "Pin.C17_computeFrameJacobian",
    "Pin.C17_computeJointJacobian",
    "Pin.C17_framePlacement"
   ],
   "note": "Models without mimic joints and with at least one degree of freedom per joint (Packed, Full); every joint, frame and reference frame; stand-alone functions agree with the two-step ones; columns outside the support are not written."
  },
  {
   "property": "C18",
   "status": "partial",
   "theorems": [
    "Pin.C18_bias",
    "Pin.C18_bias_partial",
    "Pin.C18_passivity_partial",
    "Pin.C18_skew_partial",
    "Pin.C18_getCoriolis",
    "Pin.C18_getCoriolis_after",
    "Pin.C18_untouched",
    "Pin.C18_counterexample"
   ],
   "note": "C v + g = nle is proved with the exact joint-bias term for all joints (C18_bias); without it, and for C + C^T = dM/dt, for joints with constant motion subspaces (C18_bias_partial, C18_passivity_partial, C18_skew_partial). The claim fails for SphericalZYX (C18_counterexample). getCoriolisMatrix is covered. Models without mimic joints, at least one degree of freedom per joint, depth-first order."
  },
  {
   "property": "C19",
   "status": "proved",
   "theorems": [
    "Pin.C19_totalMass",
    "Pin.C19_subtreeMasses",
    "Pin.C19_com",
    "Pin.C19_com_subtree",
    "Pin.C19_velocity",
    "Pin.C19_acceleration",
    "Pin.C19_velocity_derivative",
    "Pin.C19_acceleration_derivative",
    "Pin.C19_jacobian",
    "Pin.C19_subtree_jacobian",
    "Pin.C19_get_subtree_jacobian",
    "Pin.C19_jacobian_from_crba",
    "Pin.C19_crba_com",
    "Pin.C19_getComFromCrba_counterexample",
    "Pin.C19_subtree_side_effects_counterexample"
   ],
   "note": "Total and subtree masses, positions, velocities and accelerations of the centre of mass (with subtrees), time-derivative statements along trajectories, jacobianCenterOfMass, jacobianSubtreeCenterOfMass, getJacobianSubtreeCenterOfMass and getJacobianComFromCrba; models without mimic joints for the Jacobians. Findings: getComFromCrba does not return the centre of mass, jacobianSubtreeCenterOfMass spoils other stored quantities (C19_*_counterexample)."
  },
  {
   "property": "C20",
   "status": "proved",
   "theorems": [
    "Pin.C20_momentum",
    "Pin.C20_map",
    "Pin.C20_ccrba",
    "Pin.C20_Ig",
    "Pin.C20_crba_Ag"
   ],
   "note": "computeCentroidalMomentum, computeCentroidalMap, ccrba (Ag, hg, Ig, com) and the Ag left by crba in the world convention, against the sum of the momenta of the bodies about the centre of mass. Maps: models without mimic joints, masses 0 or above the epsilon of Inertia::operator+, total mass non-zero."
  },
  {
   "property": "C21",
   "status": "partial",
   "theorems": [
    "Pin.C21_any_content",
    "Pin.C21_history",
    "Pin.C21_two_histories",
    "Pin.C21_content_counterexample",
    "Pin.C21_squaredDistance_counterexample"
   ],
   "note": "For every history of 50 kinds of calls (32 algorithms, 18 continuations, any arguments) on a fresh data, the documented results of the next call are those on a fresh data (C21_history, C21_two_histories); for all but crba, computeCoriolisMatrix and the kinetic energy whatever data contains (C21_any_content). Trees without mimic joints in depth-first order. The literal statement is false for squaredDistance (C21_squaredDistance_counterexample, accumulates into out), for crba on a data whose M was overwritten by the user (C21_content_counterexample) and for computeCentroidalMapTimeVariation (C45_mapTimeVariation_counterexample, stale vcom[0])."
  },
  {
   "property": "C22",
   "status": "proved",
   "theorems": [
    "Pin.C22_decompose",
    "Pin.C22_decompose_history",
    "Pin.C22_products",
    "Pin.C22_Mv",
    "Pin.C22_UDUtv",
    "Pin.C22_solve",
    "Pin.C22_computeMinv",
    "Pin.C22_positive",
    "Pin.C22_dynamics"
   ],
   "note": "Sparse UDUt factorisation on the tree of rows, products, solves and inverse, for every depth-first tree; pivots of positive definite matrices are positive; composed with crba and rnea. Exact arithmetic. Joints without degree of freedom are excluded (Sys.Full)."
  },
  {
   "property": "C23",
   "status": "proved",
   "theorems": [
    "Pin.C23_minverse",
    "Pin.C23_aba",
    "Pin.C23_crba",
    "Pin.C23_cholesky"
   ],
   "note": "C23_minverse: inverse of the kinetic-energy matrix for every history; C23_crba and C23_cholesky relate it to crba and cholesky::computeMinv; C23_aba to aba."
  },
  {
   "property": "C24",
   "status": "proved",
   "theorems": [
    "Pin.C24_integrate_difference",
    "Pin.C24_integrate_difference_joint",
    "Pin.C24_difference_integrate",
    "Pin.C24_integrate_zero",
    "Pin.C24_difference_self"
   ],
   "note": "For every reachable model and all previous contents of the outputs. Exact round trips on vector spaces, SO(2) (including the antipode; velocities in (-pi, pi]) and, beyond the property, SE(2) when the angle is zero or at least 1e-4 (below, the code uses a Taylor series). Zero velocity and zero difference are exact for every group, SO(3) and SE(3) included. Scalars are reals; rounding is not modelled."
  },
  {
   "property": "C25",
   "status": "partial",
   "theorems": [
    "Pin.C25_so2",
    "Pin.C25_so3_se3_partial",
    "Pin.C25_se2",
    "Pin.C25_exact_counterexample"
   ],
   "note": "SO(2) fully (quadratic contraction, never grows, exact unit kept). SO(3)/SE(3): error e goes to at most (e + 3/2 d)^2 and stays below max(e0, 7 d^2) for any number of calls, d = eps^(3/4)/23040; 'exactly unit stays exactly unit' is false for SO(3) in exact arithmetic (counterexample). SE(2): the norm is exactly preserved but never corrected."
  },
  {
   "property": "C26",
   "status": "partial",
   "theorems": [
    "Pin.C26_start",
    "Pin.C26_end_partial",
    "Pin.C26_so2_unit",
    "Pin.C26_antipode_counterexample",
    "Pin.C26_so3_opposite"
   ],
   "note": "u = 0 for every joint type. u = 1 for vector spaces, SO(2) away from the antipode, SE(2) with angle zero or at least 1e-4. Counterexample: on SO(2) interpolation to the opposite orientation returns q0 for every u. Missing: SO(3)/SE(3) at u = 1 (approximate in the code)."
  },
  {
   "property": "C27",
   "status": "proved",
   "theorems": [
    "Pin.C27_simple_joint",
    "Pin.C27_tiling",
    "Pin.C27_integrate",
    "Pin.C27_difference",
    "Pin.C27_interpolate",
    "Pin.C27_neutral",
    "Pin.C27_normalize",
    "Pin.C27_output_content",
    "Pin.C27_normalize_unit",
    "Pin.C27_neutral_unit",
    "Pin.C27_squaredDistance_accumulates",
    "Pin.C27_squaredDistanceSum",
    "Pin.C27_distance_self"
   ],
   "note": "For every reachable model, composite and mimic joints included: segments tile the vectors, each is written with its joint's result, nothing else is written, results do not depend on the output's previous content. Also normalize/isNormalized/neutral, squaredDistanceSum and distance."
  },
  {
   "property": "C28",
   "status": "proved",
   "theorems": [
    "Pin.C28_registry",
    "Pin.C28_exceptions",
    "Pin.C28_addPair_throws",
    "Pin.C28_order",
    "Pin.C28_queries"
   ],
   "note": "Every history of addGeometryObject (both overloads) / addCollisionPair / removeCollisionPair / addAll / removeAll / setCollisionPairs calls, exceptions caught, against a set of unordered pairs; the only precondition is a valid frame index for addGeometryObject(object, model), whose bound is not checked by the code."
  },
  {
   "property": "C29",
   "status": "partial",
   "theorems": [
    "Pin.C29_list",
    "Pin.C29_partial",
    "Pin.C29_recovery",
    "Pin.C29_counterexample",
    "Pin.C29_undefined",
    "Pin.C29_append"
   ],
   "note": "The claim is false of the code: C29_counterexample (stale collisionPairMapping: queries wrong, duplicates can be added), C29_undefined (iterator decremented before begin()). Proved: the list of pairs and objects is right whenever the call is defined (C29_list), the registry stays consistent when no pair mentions the object or a later one (C29_partial), removeAll/addAll/setCollisionPairs repair it (C29_recovery). appendGeometryModel has the same flaw (C29_append)."
  },
  {
   "property": "C30",
   "status": "proved",
   "theorems": [
    "Pin.C30_call",
    "Pin.C30_flags",
    "Pin.C30_margins",
    "Pin.C30_maps"
   ],
   "note": "Per call and over every history from the constructor; also security margins and inner/outer maps."
  },
  {
   "property": "C31",
   "status": "proved",
   "theorems": [
    "Pin.C31_closest",
    "Pin.C31_fixed",
    "Pin.C31_idempotent",
    "Pin.C31_isInside",
    "Pin.C31_isInside_counterexample",
    "Pin.C31_dual_isInside",
    "Pin.C31_bidual",
    "Pin.C31_dual_closest",
    "Pin.C31_dual_counterexample",
    "Pin.C31_moreau",
    "Pin.C31_weighted",
    "Pin.C31_radial"
   ],
   "note": "Every mu >= 0 for the cone, mu > 0 for isInside and the dual projection; C31_isInside_counterexample and C31_dual_counterexample show that both fail for mu = 0, which the code accepts."
  },
  {
   "property": "C32",
   "status": "partial",
   "theorems": [
    "Pin.C32_feasible",
    "Pin.C32_fixed_points",
    "Pin.C32_relative",
    "Pin.C32_partial",
    "Pin.C32_counterexample"
   ],
   "note": "Iterates are always in the cones, fixed points are exactly the solutions, relative success is honest; success by absolute precision is not (C32_counterexample): the residual is computed from an overwritten velocity."
  },
  {
   "property": "C33",
   "status": "proved",
   "theorems": [
    "Pin.C33_rnea",
    "Pin.C33_aba",
    "Pin.C33_ends",
    "Pin.C33_rnea_checks",
    "Pin.C33_aba_checks_counterexample",
    "Pin.C33_reached"
   ],
   "note": "Interleaving semantics of the OpenMP loop (every thread count, every schedule, arbitrary previous data). Sequential consistency assumed; num_threads=0 not rejected by the code. abaInParallel does not check tau (C33_aba_checks_counterexample)."
  },
  {
   "property": "C34",
   "status": "partial",
   "theorems": [
    "Pin.C34_resize",
    "Pin.C34_partial",
    "Pin.C34_counterexample",
    "Pin.C34_overwrites",
    "Pin.C34_geometry_counterexample"
   ],
   "note": "Exact effect of resize proved (C34_resize); invariant proved for histories whose growths at most double the size; false beyond that (C34_counterexample), existing entries are overwritten (C34_overwrites), geometry pools are never completed (C34_geometry_counterexample)."
  },
  {
   "property": "C35",
   "status": "proved",
   "theorems": [
    "Pin.C35_sequential",
    "Pin.C35_parallel",
    "Pin.C35_ends",
    "Pin.C35_index_counterexample",
    "Pin.C35_batch_stop",
    "Pin.C35_batch_stop_counterexample",
    "Pin.C35_placements",
    "Pin.C35_batch",
    "Pin.C35_reachable"
   ],
   "note": "Every interleaving of single accesses to the shared flag/index/results; batch versions with and without stop. collisionPairIndex and the stop-in-batch results are schedule dependent (counterexample theorems). Sequential consistency assumed."
  },
  {
   "property": "C36",
   "status": "proved",
   "theorems": [
    "Pin.C36_common_ancestor",
    "Pin.C36_rejects"
   ],
   "note": "findCommonAncestor on every reachable model: deepest common ancestor and its two positions; rejects other indices"
  },
  {
   "property": "C37",
   "status": "partial",
   "theorems": [
    "Pin.C37_joints",
    "Pin.C37_mimicA",
    "Pin.C37_mimicB",
    "Pin.C37_masses",
    "Pin.C37_total_mass",
    "Pin.C37_inertias_partial",
    "Pin.C37_frames",
    "Pin.C37_refused_index",
    "Pin.C37_refused_names",
    "Pin.C37_placementsA",
    "Pin.C37_placementsB",
    "Pin.C37_velocitiesA",
    "Pin.C37_velocitiesB",
    "Pin.C37_kinetic_partial",
    "Pin.C37_mass_matrix_partial",
    "Pin.C37_armature_counterexample",
    "Pin.C37_inertia_counterexample",
    "Pin.C37_frame_name_counterexample",
    "Pin.C37_mimic_counterexample"
   ],
   "note": "Holds of the joints (each once, names, types, sizes, limits, friction, damping, rotor parameters, parents, placements), mimic joints, masses, frames, placements and velocities; inertias, kinetic energy and mass matrix when no frame carries an inertia. Fails for the armature (dropped), for inertias when a frame carries one, for models with a body frame named as a joint (refused), and with undefined behaviour when a descendant of the joint of the frame mimics a joint copied later (four counterexamples). Geometry and reference configurations are not modelled."
  },
  {
   "property": "C38",
   "status": "partial",
   "theorems": [
    "Pin.C38_joints",
    "Pin.C38_mimic",
    "Pin.C38_mass",
    "Pin.C38_inertia",
    "Pin.C38_frames",
    "Pin.C38_placements",
    "Pin.C38_inverse_dynamics",
    "Pin.C38_velocities",
    "Pin.C38_mass_matrix",
    "Pin.C38_refused",
    "Pin.C38_armature_counterexample",
    "Pin.C38_mass_counterexample",
    "Pin.C38_ub_counterexample",
    "Pin.C38_ignored_counterexample"
   ],
   "note": "Proved for every model built by construction calls with parameters then set to any values, every list of joints to lock and every reference configuration, when the call returns: names, order, types, sizes, limits, friction, damping, rotor parameters, parents, placements, mimic targets, inertias, total mass, frames, placements, velocities, inverse dynamics, mass matrix. False as stated: the armature is dropped (C38_armature_counterexample), mass can be lost when a fixed frame has a joint's name (C38_mass_counterexample), and some calls are undefined behaviour (C38_ub_counterexample). Not proved: that the call returns for every model with joint frames; dynamics with mimic joints."
  },
  {
   "property": "C39",
   "status": "partial",
   "theorems": [
    "Pin.C39_revolute",
    "Pin.C39_revoluteUnaligned",
    "Pin.C39_revoluteUnbounded",
    "Pin.C39_revoluteUnboundedUnaligned",
    "Pin.C39_prismatic",
    "Pin.C39_prismaticUnaligned",
    "Pin.C39_translation",
    "Pin.C39_planar",
    "Pin.C39_spherical",
    "Pin.C39_freeFlyer",
    "Pin.C39_sphericalZYX",
    "Pin.C39_universal",
    "Pin.C39_helical",
    "Pin.C39_helicalUnaligned",
    "Pin.C39_composite",
    "Pin.C39_mimic_partial",
    "Pin.C39_mimic_revolute_prismatic",
    "Pin.C39_mimic_helical_counterexample"
   ],
   "note": "all joint types including composite, derivative via the same code over dual numbers; mimic joints proved when the mimicked joint has a constant motion subspace equal to the one of createData(); for a mimicked helical joint the code is wrong (C39_mimic_helical_counterexample)"
  },
  {
   "property": "C40",
   "status": "partial",
   "theorems": [
    "Pin.C40_torque",
    "Pin.C40_partial",
    "Pin.C40_body",
    "Pin.C40_kinetic",
    "Pin.C40_kinetic_energy",
    "Pin.C40_potential",
    "Pin.C40_static",
    "Pin.C40_kinematic",
    "Pin.C40_counterexample"
   ],
   "note": "C40_torque: regressor times parameters is rnea minus armature*a, for every tree; C40_partial: equal to rnea when there is no rotor inertia. The literal statement is false with a non-zero armature (C40_counterexample): rnea adds armature*a and the regressor has no column for it. Also body, kinetic-energy, potential-energy, static and kinematic regressors. Models without mimic joints."
  },
  {
   "property": "C41",
   "status": "proved",
   "theorems": [
    "Pin.C41_rotation",
    "Pin.C41_opposite",
    "Pin.C41_product",
    "Pin.C41_conjugate",
    "Pin.C41_same_rotation",
    "Pin.C41_assign",
    "Pin.C41_roundtrip"
   ],
   "note": "assignQuaternion modelled branch by branch over any ordered field with square roots (instance for the reals); conversion to matrix, product, conjugate, two-to-one kernel, and both round trips. slerp and firstOrderNormalize are not part of this claim."
  },
  {
   "property": "C42",
   "status": "partial",
   "theorems": [
    "Pin.C42_matrix",
    "Pin.C42_right_partial",
    "Pin.C42_right_counterexample",
    "Pin.C42_left",
    "Pin.C42_solve",
    "Pin.C42_inverse",
    "Pin.C42_positive_definite"
   ],
   "note": "Dense conversion, left product, solve and explicit inverse proved for every size and coefficients (pivots non-zero, and unconditionally for positive definite matrices). T * mat is only defined for square mat: C42_right_counterexample shows that the code has no defined result for a vector."
  },
  {
   "property": "C43",
   "status": "proved",
   "theorems": [
    "Pin.C43_power_balance",
    "Pin.C43_gravity_gradient",
    "Pin.C43_potential",
    "Pin.C43_mechanical"
   ],
   "note": "derivatives via the same formulas over dual numbers; gravity without angular part (as in the default model)"
  },
  {
   "property": "C44",
   "status": "partial",
   "theorems": [
    "Pin.C44_acceleration",
    "Pin.C44_constant_subspace_partial",
    "Pin.C44_joint",
    "Pin.C44_derivative",
    "Pin.C44_counterexample"
   ],
   "note": "Proved with the exact correction term: the pass drops the derivative of the motion subspace, so the claim holds for joints with constant subspace and fails for SphericalZYX (C44_counterexample)."
  },
  {
   "property": "C45",
   "status": "partial",
   "theorems": [
    "Pin.C45_dhg",
    "Pin.C45_dhg_derivative",
    "Pin.C45_dccrba_side",
    "Pin.C45_dccrba",
    "Pin.C45_dccrba_partial",
    "Pin.C45_dAg_derivative_partial",
    "Pin.C45_mapTimeVariation_partial",
    "Pin.C45_mapTimeVariation_counterexample",
    "Pin.C45_counterexample"
   ],
   "note": "dhg is the derivative of hg for all joints (C45_dhg_derivative). dAg v + Ag a = dhg with the exact joint-bias term (C45_dccrba); without it, and dAg = d/dt Ag column by column, for constant motion subspaces (_partial). Fails for SphericalZYX (C45_counterexample). computeCentroidalMapTimeVariation reads a stale vcom[0] (C45_mapTimeVariation_counterexample; C45_mapTimeVariation_partial when vcom[0] is current)."
  },
  {
   "property": "C46",
   "status": "partial",
   "theorems": [
    "Pin.C46_after_aba_partial",
    "Pin.C46_counterexample"
   ],
   "note": "Proved after aba with Convention::WORLD (with and without external forces). False after aba with the default Convention::LOCAL: C46_counterexample, because data.J is not filled and U is in joint frames."
  },
  {
   "property": "C47",
   "status": "proved",
   "theorems": [
    "Pin.C47_relative_placement"
   ],
   "note": "getRelativePlacement, both conventions, after forwardKinematics on every reachable model"
  },
  {
   "property": "C48",
   "status": "proved",
   "theorems": [
    "Pin.C48_success",
    "Pin.C48_exact",
    "Pin.C48_feasible",
    "Pin.C48_stationary"
   ],
   "note": "The linear solve of the damped Delassus operator is assumed exact. Spectral initialisation of rho is not modelled: any positive rho."
  },
  {
   "property": "C49",
   "status": "partial",
   "theorems": [
    "Pin.C49_feasible",
    "Pin.C49_fixed_points",
    "Pin.C49_correction_counterexample",
    "Pin.C49_correction_wrong",
    "Pin.C49_fresh_data_counterexample",
    "Pin.C49_defined"
   ],
   "note": "Feasibility and fixed points proved for the problem without correction. C49_correction_*: constraint_correction is ignored. C49_fresh_data_counterexample: undefined behaviour without a guess on a fresh Data."
  },
  {
   "property": "C50",
   "status": "proved",
   "theorems": [
    "Pin.C50_coulomb",
    "Pin.C50_correction"
   ],
   "note": "mu > 0."
  },
  {
   "property": "C51",
   "status": "partial",
   "theorems": [
    "Pin.C51_partial",
    "Pin.C51_counterexample"
   ],
   "note": "Proved for contacts with the environment; C51_counterexample: same-sign forces on both bodies."
  },
  {
   "property": "C52",
   "status": "partial",
   "theorems": [
    "Pin.C52_velocity",
    "Pin.C52_velocity_lwa_partial",
    "Pin.C52_acceleration",
    "Pin.C52_acceleration_world_error",
    "Pin.C52_acceleration_world_partial",
    "Pin.C52_same_velocity",
    "Pin.C52_frame_velocity",
    "Pin.C52_frame_acceleration",
    "Pin.C52_frame_acceleration_world_error",
    "Pin.C52_point_velocity",
    "Pin.C52_point_acceleration",
    "Pin.C52_acceleration_world_counterexample",
    "Pin.C52_velocity_lwa_counterexample",
    "Pin.C52_stale_counterexample",
    "Pin.C52_constS_counterexample"
   ],
   "note": "Proved by running forwardKinematics on dual numbers. LOCAL and WORLD velocities, LOCAL accelerations, points in both frames: exact derivatives for any zero-initialised output. WORLD and LOCAL_WORLD_ALIGNED accelerations: the exact error is proved; it is zero when only joints attached to the universe have several degrees of freedom, and a counterexample shows it is not zero in general. LOCAL_WORLD_ALIGNED velocity derivatives are those of the WORLD velocity moved to the joint origin, not of getVelocity. Excluded: joints whose motion subspace depends on the configuration (counterexample with SphericalZYX) and mimic joints."
  },
  {
   "property": "C53",
   "status": "partial",
   "theorems": [
    "Pin.C53_rnea",
    "Pin.C53_rnea_fext_partial",
    "Pin.C53_rnea_in_data",
    "Pin.C53_inertia_and_torque",
    "Pin.C53_torque_fext",
    "Pin.C53_branch_zero",
    "Pin.C53_static",
    "Pin.C53_gravity",
    "Pin.C53_armature_counterexample",
    "Pin.C53_stale_counterexample",
    "Pin.C53_constS_counterexample"
   ],
   "note": "proved for joints with a constant motion subspace (all but SphericalZYX, Universal, ellipsoid, composite) and models without mimic joint; the condition is needed. The overload with external forces leaves the armature out of rnea_partial_da (counterexample)."
  },
  {
   "property": "C54",
   "status": "partial",
   "theorems": [
    "Pin.C54_fext_partial",
    "Pin.C54_aba_partial",
    "Pin.C54_in_data_partial",
    "Pin.C54_after_aba_partial",
    "Pin.C54_ddq",
    "Pin.C54_minverse",
    "Pin.C54_stale_counterexample",
    "Pin.C54_after_local_counterexample",
    "Pin.C54_constS_counterexample"
   ],
   "note": "Proved for every tree of joints with a constant motion subspace (not SphericalZYX, universal, ellipsoid), when the entries between different branches of data.dtau_dq and data.dtau_dv are zero, which the call keeps; both conditions are shown necessary. The overloads without q, v, tau need aba in the world convention; with the default convention they are shown wrong. data.ddq and the inverse inertia are proved without these conditions. Models with mimic joints are rejected by the code."
  },
  {
   "property": "C55",
   "status": "partial",
   "theorems": [
    "Pin.C55_com_exists",
    "Pin.C55_compute_partial",
    "Pin.C55_get_partial",
    "Pin.C55_com_velocity_partial",
    "Pin.C55_twice_counterexample",
    "Pin.C55_fext_counterexample",
    "Pin.C55_universe_velocity_counterexample",
    "Pin.C55_constS_counterexample"
   ],
   "note": "Proved over dual numbers for joints whose motion subspace is constant (the ZYX case is a counterexample), for the first call of getCentroidalDynamicsDerivatives after computeRNEADerivatives without external forces (calling twice and external forces are counterexamples), and for the velocity of the centre of mass when no subtree is massless."
  },
  {
   "property": "C56",
   "status": "partial",
   "theorems": [
    "Pin.C56_kinematics",
    "Pin.C56_jacobians",
    "Pin.C56_mass_matrix",
    "Pin.C56_mass_entries",
    "Pin.C56_nle",
    "Pin.C56_com",
    "Pin.C56_jacobian_com",
    "Pin.C56_ccrba",
    "Pin.C56_dccrba",
    "Pin.C56_gravity",
    "Pin.C56_energies",
    "Pin.C56_com_velocity_derivative",
    "Pin.C56_dhg_partial",
    "Pin.C56_dhg_gravity_counterexample",
    "Pin.C56_dhg_history_counterexample",
    "Pin.C56_subtree_jacobian_counterexample"
   ],
   "note": "All documented fields proved equal, except data.dhg (proved up to the weight and the previous data.f[0]; counterexamples) and getJacobianSubtreeCenterOfMass afterwards (counterexample). Gravity: fields without angular part. Models without mimic joints."
  },
  {
   "property": "C57",
   "status": "partial",
   "theorems": [
    "Pin.C57_exp3_accuracy",
    "Pin.C57_exp6_accuracy_partial",
    "Pin.C57_exp3_derivative_partial",
    "Pin.C57_exp3_derivative_counterexample",
    "Pin.C57_exp3_operators",
    "Pin.C57_exp6_derivative_partial",
    "Pin.C57_exp6_derivative_counterexample",
    "Pin.C57_exp_log3",
    "Pin.C57_log_exp3",
    "Pin.C57_log3_derivative_partial",
    "Pin.C57_log6_derivative_partial",
    "Pin.C57_log3_exp3_inverse",
    "Pin.C57_log3_second_derivative_partial",
    "Pin.C57_quaternion_coefficients_partial",
    "Pin.C57_quaternion_coefficients_counterexample",
    "Pin.C57_dIntegrate_blocks",
    "Pin.C57_integrate_step_partial",
    "Pin.C57_difference_diff_partial",
    "Pin.C57_integrate_derivative_partial",
    "Pin.C57_difference_derivative_partial",
    "Pin.C57_planar_integrate_derivative_partial",
    "Pin.C57_planar_difference_derivative_partial",
    "Pin.C57_transport",
    "Pin.C57_transport_in_place",
    "Pin.C57_stale_matrix_counterexample",
    "Pin.C57_coefficients_partial"
   ],
   "note": "Derivatives proved where the code leaves its expansions (not small angles) and away from the singularities (full turns for Jexp6, half turns for logarithms); two counterexamples show the expansions of Jexp3 and Jexp3CoeffWise have wrong coefficients, one that Jexp6 divides by zero at a full turn, one that SETTO leaves stale entries beside the blocks. exp3 bound holds for every argument. integrateCoeffWiseJacobian for vector spaces, SO(2), SE(2) only."
  },
  {
   "property": "C58",
   "status": "proved",
   "theorems": [
    "Pin.C58_forward_dynamics",
    "Pin.C58_forward_dynamics_unique",
    "Pin.C58_gauss",
    "Pin.C58_impulse",
    "Pin.C58_impulse_energy",
    "Pin.C58_kkt_inverse",
    "Pin.C58_kkt_inverse_get",
    "Pin.C58_again"
   ],
   "note": "exact arithmetic; sqrt assumed to be a square root on the positive pivots (Real.sqrt is); Eigen::LLT modelled as the exact solution of the linear system"
  },
  {
   "property": "C59",
   "status": "partial",
   "theorems": [
    "Pin.C59_frames",
    "Pin.C59_span",
    "Pin.C59_velocity_3d",
    "Pin.C59_velocity_6d",
    "Pin.C59_velocity_6d_closed",
    "Pin.C59_untouched",
    "Pin.C59_getConstraintJacobian",
    "Pin.C59_stack",
    "Pin.C59_product_partial",
    "Pin.C59_derivative_3d",
    "Pin.C59_derivative_6d",
    "Pin.C59_product_counterexample"
   ],
   "note": "Jacobians, span, stacking and derivatives proved in full; jacobian_matrix_product is proved equal to the product for CONTACT_3D in LOCAL and C59_product_counterexample shows that it ignores the reference frame."
  },
  {
   "property": "C60",
   "status": "proved",
   "theorems": [
    "Pin.C60_throws",
    "Pin.C60_matrix",
    "Pin.C60_products",
    "Pin.C60_solve",
    "Pin.C60_inverse",
    "Pin.C60_osim",
    "Pin.C60_mass_blocks",
    "Pin.C60_delassus",
    "Pin.C60_massPart",
    "Pin.C60_history",
    "Pin.C60_updateDamping",
    "Pin.C60_jacobian",
    "Pin.C60_pivots",
    "Pin.C60_crba_jacobian",
    "Pin.C60_crba"
   ],
   "note": "Models without mimic joint; exact arithmetic. compute with as many constraints as allocate but of other sizes is outside the model. The overloads on matrices apply the vector functions to each column."
  },
  {
   "property": "C61",
   "status": "partial",
   "theorems": [
    "Pin.C61_throws",
    "Pin.C61_equations",
    "Pin.C61_exact",
    "Pin.C61_converges",
    "Pin.C61_contact_3d",
    "Pin.C61_contact_6d",
    "Pin.C61_forces",
    "Pin.C61_crba",
    "Pin.C61_impulse_throws",
    "Pin.C61_impulse",
    "Pin.C61_restitution_partial",
    "Pin.C61_residual_counterexample",
    "Pin.C61_max_iter_counterexample",
    "Pin.C61_restitution_counterexample"
   ],
   "note": "Equations of motion, constraint up to mu times the relative residual, exactness and uniqueness, convergence of the proximal loop, forces, crba outputs, impacts against the universe and exceptions proved. False of the code and shown by witnesses: the absolute residual does not measure the constraint; max_iter = 0 returns torques; impacts between two moving bodies ignore the second one. Hypothesis: max_iter at least 1."
  },
  {
   "property": "C62",
   "status": "partial",
   "theorems": [
    "Pin.C62_model",
    "Pin.C62_injective",
    "Pin.C62_mimic_partial",
    "Pin.C62_joint",
    "Pin.C62_geometry",
    "Pin.C62_geometry_partial",
    "Pin.C62_object",
    "Pin.C62_mimic_counterexample",
    "Pin.C62_infinite_counterexample",
    "Pin.C62_material_counterexample",
    "Pin.C62_target_counterexample"
   ],
   "note": "C62_model for models without mimic joint (any nesting of composite joints, any target, any format); C62_mimic_partial with mimic joints; C62_geometry without materials. The missing parts are false: counterexamples for mimic sizes, the string format with infinite limits, materials, mimic targets. Data, StaticBuffer, and the character encoding of the archives are not modelled."
  },
  {
   "property": "C63",
   "status": "partial",
   "theorems": [
    "Pin.C63_equal_partial",
    "Pin.C63_refl",
    "Pin.C63_loaded",
    "Pin.C63_cast_partial",
    "Pin.C63_cast_structure",
    "Pin.C63_joint_counterexample",
    "Pin.C63_model_counterexample",
    "Pin.C63_nan_counterexample",
    "Pin.C63_cast_counterexample"
   ],
   "note": "C63_equal_partial for the members compared; C63_refl; C63_loaded; C63_cast_structure for every conversion; C63_cast_partial without mimic joints. The rest is false: counterexamples for helical and mimic joints, names of reference configurations, supports, cast of mimic joints."
  },
  {
   "property": "C64",
   "status": "partial",
   "theorems": [
    "Pin.Model.C64_accepts",
    "Pin.Model.C64_tree",
    "Pin.Model.C64_inertia",
    "Pin.Model.C64_keeps",
    "Pin.Model.C64_origin",
    "Pin.Model.C64_inertial",
    "Pin.Model.C64_kinematics_partial",
    "Pin.C64_root_name_counterexample",
    "Pin.C64_universe_name_counterexample",
    "Pin.C64_mimic_axis_counterexample",
    "Pin.C64_mimic_chain_counterexample",
    "Pin.C64_mimic_continuous_counterexample",
    "Pin.C64_mimic_ignored_counterexample",
    "Pin.C64_planar_axis_counterexample"
   ],
   "note": "Proved for every description with fresh names. Not so, each with a counterexample: a joint named like the root joint, a fixed joint named universe, mimic joints with an axis that is not a coordinate axis, mimic of a mimic joint, mimic of or on a continuous joint, the axis of planar joints. Not modelled: the XML reader (urdfdom), geometries, the mjcf and sdf parsers."
  },
  {
   "property": "C65",
   "status": "proved",
   "theorems": [
    "Pin.C65_matrix",
    "Pin.C65_angles",
    "Pin.C65_singular",
    "Pin.C65_roundtrip",
    "Pin.C65_jacobian",
    "Pin.C65_inverse",
    "Pin.C65_jacobian_dot",
    "Pin.C65_half_turn_counterexample"
   ],
   "note": "Over the real numbers, with real derivatives. eulerAngles(2,1,0) is modelled from Eigen 3.3/3.4. A roll of exactly half a turn with a negative yaw is returned as minus half a turn (counterexample to the exact round trip on the closed range, the orientation is the same)."
  },
  {
   "property": "C66",
   "status": "partial",
   "theorems": [
    "Pin.C66_tables_partial",
    "Pin.C66_subtree_partial",
    "Pin.C66_check_partial",
    "Pin.C66_mimic_branch_counterexample",
    "Pin.C66_mimic_chain_counterexample",
    "Pin.C66_mimic_subtree_counterexample",
    "Pin.C66_supports_counterexample",
    "Pin.C66_no_dof_counterexample"
   ],
   "note": "Proved for every reachable model without mimic joints whose joints all have a degree of freedom. With mimic joints the property fails: wrong nvSubtree, duplicated rows in supports_fromRow, out-of-range reads (counterexamples)."
  },
  {
   "property": "C67",
   "status": "partial",
   "theorems": [
    "Pin.C67_tensor",
    "Pin.C67_world",
    "Pin.C67_local_world_aligned",
    "Pin.C67_local_error",
    "Pin.C67_local_partial",
    "Pin.C67_local_counterexample"
   ],
   "note": "WORLD and LOCAL_WORLD_ALIGNED proved for all models with constant motion subspaces; LOCAL proved when joints that are not attached to the universe have one degree of freedom, with the exact error otherwise and a counterexample (spherical joint behind a revolute joint)."
  },
  {
   "property": "C68",
   "status": "partial",
   "theorems": [
    "Pin.Delassus.C68_dense",
    "Pin.Delassus.C68_dense_rounded",
    "Pin.Delassus.C68_sparse_partial",
    "Pin.Delassus.C68_sparse_natural_counterexample",
    "Pin.Delassus.C68_sparse_drift_counterexample",
    "Pin.Delassus.C68_sparse_failure_counterexample"
   ],
   "note": "Proved for the dense operator, in exact arithmetic and for any rounding. The sparse operator is proved in exact arithmetic with a decomposition that reorders the unknowns; three counterexamples: natural ordering, rounding drift of the damped matrix, silent failure."
  },
  {
   "property": "C69",
   "status": "partial",
   "theorems": [
    "Pin.Eigenvalues.C69_largest",
    "Pin.Eigenvalues.C69_nan",
    "Pin.Eigenvalues.C69_lowest_partial",
    "Pin.Eigenvalues.C69_orthogonal_counterexample",
    "Pin.Eigenvalues.C69_identity_counterexample",
    "Pin.Eigenvalues.C69_negative_counterexample",
    "Pin.Eigenvalues.C69_early_counterexample",
    "Pin.Eigenvalues.C69_below_counterexample"
   ],
   "note": "Largest eigenvalue and NaN are proved for every symmetric matrix; the lowest one is above the spectrum bound only when the largest one found is at least the middle of the spectrum. Counterexamples: start orthogonal to the eigenvector, multiples of the identity (NaN), negative matrices, stop at the first iteration, lowest below the spectrum."
  },
  {
   "property": "C70",
   "status": "partial",
   "theorems": [
    "Pin.C70_distances",
    "Pin.C70_distances_configuration",
    "Pin.C70_radius",
    "Pin.C70_radius_tight_partial",
    "Pin.C70_radius_counterexample"
   ],
   "note": "Distances and the enclosing radius are proved for all inputs. The radius is the distance of a corner only on geometry data just built: a second call never lowers a radius (counterexample)."
  },
  {
   "property": "C71",
   "status": "partial",
   "theorems": [
    "Pin.Lanczos.C71_gram_schmidt",
    "Pin.Lanczos.C71_decomposition",
    "Pin.Lanczos.C71_residual",
    "Pin.Lanczos.C71_rank_counterexample",
    "Pin.Lanczos.C71_stale_counterexample",
    "Pin.Lanczos.C71_norm_counterexample"
   ],
   "note": "Proved in exact real arithmetic for every symmetric operator. Two clauses are false of the code: rank() after an early stop, and the columns beyond the stop."
  },
  {
   "property": "C72",
   "status": "partial",
   "theorems": [
    "Pin.C72_inertia_body",
    "Pin.C72_inertia_partial",
    "Pin.C72_force_partial",
    "Pin.C72_universe_counterexample",
    "Pin.C72_rnea_counterexample",
    "Pin.C72_cut_counterexample",
    "Pin.C72_append_counterexample"
   ],
   "note": "Proved for frames that are not attached to the universe, when the forward kinematics (with accelerations) is run as well as rnea, and with all the joints supported by the joint of the frame (not only those attached after the frame). Counterexamples for the three other cases, and for the documented equivalence with model.inertias."
  },
  {
   "property": "C73",
   "status": "partial",
   "theorems": [
    "Pin.Broadphase.C73_construct",
    "Pin.Broadphase.C73_update",
    "Pin.Broadphase.C73_collisions",
    "Pin.Broadphase.C73_same",
    "Pin.Broadphase.C73_tree_partial",
    "Pin.Broadphase.C73_flag_counterexample",
    "Pin.Broadphase.C73_flat_counterexample",
    "Pin.Broadphase.C73_tree_counterexample",
    "Pin.Broadphase.C73_stale_counterexample",
    "Pin.Broadphase.C73_added_counterexample"
   ],
   "note": "Exact characterisation of the pairs looked at: proved equal to the exhaustive query when no geometry is flat; the tree of managers leaves out the pairs of one joint (counterexample). The collision library is an assumption (boxes enclose, overlapping pairs are presented, the narrow phase respects the security margin); break_distance is assumed non-negative."
  },
  {
   "property": "C74",
   "status": "partial",
   "theorems": [
    "Pin.Lie.C74_throws",
    "Pin.Lie.C74_range",
    "Pin.Lie.C74_coverage",
    "Pin.Lie.C74_default_limits_counterexample"
   ],
   "note": "Proved for finite limits whose difference times RAND_MAX does not overflow; with the default limits of addJoint the result is never finite (counterexample). Coverage is for real draws; rand() gives a grid of them. Rounding is not modelled, overflow is."
  },
  {
   "property": "C75",
   "status": "partial",
   "theorems": [
    "Pin.Srdf.C75_pairs",
    "Pin.Srdf.C75_reference",
    "Pin.Srdf.C75_rotor",
    "Pin.Srdf.C75_rotor_refused",
    "Pin.Srdf.C75_rotor_missing",
    "Pin.Srdf.C75_duplicate_counterexample",
    "Pin.Srdf.C75_unit_counterexample",
    "Pin.Srdf.C75_universe_counterexample",
    "Pin.Srdf.C75_rotor_twice_counterexample",
    "Pin.Srdf.C75_rotor_throw_counterexample",
    "Pin.Srdf.C75_append_counterexample"
   ],
   "note": "C75_pairs, C75_reference and C75_rotor give the exact effect of the three readers on well-formed documents. The last part of the statement is false (counterexamples): a tag that names the universe is undefined behaviour, a repeated group keeps the first although the warning says the last, values are stored without normalisation, a rejected rotor document leaves the model partly modified, rereading it doubles the armature, and removeCollisionPairs after appendGeometryModel is undefined behaviour. XML syntax is not modelled."
  },
  {
   "property": "C76",
   "status": "partial",
   "theorems": [
    "Pin.C76_delassus",
    "Pin.C76_definite",
    "Pin.C76_undamped",
    "Pin.C76_damped_inverse",
    "Pin.C76_refused",
    "Pin.C76_universe_counterexample",
    "Pin.C76_ignores",
    "Pin.C76_joint2_counterexample",
    "Pin.C76_lower_counterexample"
   ],
   "note": "Proved for contacts on a joint of the model, for the frames the code uses: C76_delassus (every block of the upper triangle), C76_definite, C76_undamped, C76_damped_inverse, C76_refused. The full statement fails: joint2 and the reference frame of a contact are ignored (C76_ignores, C76_joint2_counterexample), a contact on the universe is undefined behaviour (C76_universe_counterexample), the lower triangle keeps its old contents (C76_lower_counterexample). The Pv variant is C82. Not modelled: mimic joints."
  },
  {
   "property": "C77",
   "status": "partial",
   "theorems": [
    "Pin.C77_result",
    "Pin.C77_build",
    "Pin.C77_refused",
    "Pin.C77_bound_counterexample",
    "Pin.C77_kinematics",
    "Pin.C77_inverse_dynamics",
    "Pin.Ex.C77_armature_counterexample",
    "Pin.Ex.C77_chain_counterexample"
   ],
   "note": "Proved for every constructed model and pair of joints, for lists of pairs whose followed and turned joints are distinct, and for the motion (C77_kinematics) and the inverse dynamics. False parts: the number of joints is accepted as an index (C77_bound_counterexample); the armature of the turned joint is lost (C77_armature_counterexample); turning a joint that is already followed gives wrong motion without an error (C77_chain_counterexample). Motion theorems assume the same number of velocity coordinates of the two joints and a motion subspace that does not depend on the configuration. Not modelled: the reference configurations, which the code copies with the old size."
  },
  {
   "property": "C78",
   "status": "proved",
   "theorems": [
    "Pin.C78_mass_matrix",
    "Pin.C78_mass_matrix_local",
    "Pin.C78_centroidal",
    "Pin.C78_tables",
    "Pin.C78_model",
    "Pin.C78_model_local",
    "Pin.C78_first_counterexample",
    "Pin.C78_single_counterexample",
    "Pin.C78_alone_counterexample",
    "Pin.C78_sub_counterexample",
    "Pin.C78_branch_counterexample",
    "Pin.C78_second_call_counterexample",
    "Pin.C78_second_local_counterexample"
   ],
   "note": "Both conventions, for all models that meet the restrictions listed in the statement; each restriction is shown necessary by a counterexample (finding)."
  },
  {
   "property": "C79",
   "status": "partial",
   "theorems": [
    "Pin.C79_equations",
    "Pin.C79_layout",
    "Pin.C79_exact",
    "Pin.C79_unique",
    "Pin.C79_solution",
    "Pin.C79_feedback_partial",
    "Pin.C79_free",
    "Pin.C79_velocity_counterexample",
    "Pin.C79_velocity6_counterexample",
    "Pin.C79_placement_counterexample",
    "Pin.C79_desired_counterexample",
    "Pin.C79_sign_counterexample"
   ],
   "note": "Equations of motion, contact accelerations, layout of the multipliers, uniqueness and independence of the history of calls are proved in full for gravity without angular part. The clause on the corrector is proved for the placement and velocity that the contact data hold at the call (C79_feedback_partial), and is false of the state of the robot: pv reads the velocity before writing it, never computes the placement, ignores the desired acceleration (counterexamples). The multipliers are minus the contact forces."
  },
  {
   "property": "C80",
   "status": "partial",
   "theorems": [
    "Pin.C80_equations",
    "Pin.C80_exact",
    "Pin.C80_solution",
    "Pin.C80_feedback_partial",
    "Pin.C80_pv",
    "Pin.C80_multiplier",
    "Pin.C80_free",
    "Pin.C80_accumulate_counterexample",
    "Pin.C80_history_counterexample",
    "Pin.C80_first_step_counterexample",
    "Pin.C80_residual_counterexample",
    "Pin.C80_after_pv_counterexample",
    "Pin.C80_converges"
   ],
   "note": "Equations of motion with the multipliers that the call adds and the penalty, contact accelerations up to the residual, for every history (C80_equations); exact when the residual is zero, unique and equal to pv (C80_exact, C80_solution, C80_pv); bound on the equations with data.lambdaA[0] after initPvSolver (C80_multiplier). Gravity without angular part. False, with counterexamples: lambdaA[0] accumulates over calls, the first residual is read before the accelerations are computed so that equal calls differ, the residual is not written with max_iter = 1, a call to pv before it on the same data changes the system. The corrector is as in C79. Convergence to any positive tolerance, with an explicit bound on max_iter, whenever the constraints can be met (C80_converges)."
  },
  {
   "property": "C81",
   "status": "partial",
   "theorems": [
    "Pin.C81_equations",
    "Pin.C81_residual",
    "Pin.C81_converges",
    "Pin.C81_solution",
    "Pin.C81_history",
    "Pin.C81_free",
    "Pin.C81_drift_counterexample",
    "Pin.C81_two_on_joint_counterexample",
    "Pin.C81_iter_counterexample",
    "Pin.C81_residual_counterexample",
    "Pin.C81_sign_counterexample"
   ],
   "note": "Proved for at most one contact per joint and with the multiplier contact_force + mu * bias acceleration: equations of motion from any state, residual, convergence to any tolerance with an explicit bound on the iterations whenever a solution exists, uniqueness, independence of history. False in the code: contact_force itself (the bias counts twice; its sign), several contacts on one joint (only the last acts), settings.iter (always 0), the residual on max_iter."
  },
  {
   "property": "C82",
   "status": "partial",
   "theorems": [
    "Pin.C82_tables",
    "Pin.C82_delassus",
    "Pin.C82_agrees",
    "Pin.C82_refused",
    "Pin.C82_damped_inverse",
    "Pin.C82_reinit_counterexample"
   ],
   "note": "Proved for tables written by one initPvDelassus on new tables and contacts on joints of the model: C82_tables (what the tables hold), C82_delassus (every block of the upper triangle; any number of calls), C82_agrees (same entries as computeDelassusMatrix), C82_damped_inverse, C82_refused. The full statement fails: calling initPvDelassus again on the same data duplicates the accumulation joints and the matrix is wrong (C82_reinit_counterexample). As in C76, joint2 and the reference frame of a contact are not read. Not modelled: mimic joints, a contact on the universe."
  },
  {
   "property": "C83",
   "status": "partial",
   "theorems": [
    "Pin.C83_force_se3",
    "Pin.C83_force_se3_inverse",
    "Pin.C83_motion_se3",
    "Pin.C83_motion_se3_inverse",
    "Pin.C83_motion_motion",
    "Pin.C83_force_motion_partial",
    "Pin.C83_inertia_partial",
    "Pin.C83_act_force_partial",
    "Pin.C83_inverse_matrices",
    "Pin.C83_round_trip",
    "Pin.C83_force_motion_in_place_counterexample",
    "Pin.C83_inertia_in_place_counterexample",
    "Pin.C83_act_force_in_place_counterexample",
    "Pin.C83_forward_overlap_counterexample"
   ],
   "note": "All eight functions with the three operators, on any number of columns and any placement of the blocks that writes no input column before it is read. The placement actions and motionSet::motionAction are proved in place too. forceSet::motionAction, motionSet::inertiaAction and motionSet::act with plain assignment are proved except in place, where they are wrong (counterexamples); += and -= in place are proved. A forward overlap of blocks acts twice on a column (counterexample)."
  },
  {
   "property": "C84",
   "status": "proved",
   "theorems": [
    "Pin.C84_motion",
    "Pin.C84_force",
    "Pin.C84_motion_determined",
    "Pin.C84_force_determined",
    "Pin.C84_compose",
    "Pin.C84_round_trip",
    "Pin.C84_power",
    "Pin.C84_classic_placed",
    "Pin.C84_classic",
    "Pin.C84_classic_frame"
   ],
   "note": "Input and output are distinct objects: the code writes noalias products, so that a call in place is outside its contract and not modelled."
  },
  {
   "property": "C85",
   "status": "partial",
   "theorems": [
    "Pin.C85_combinations",
    "Pin.C85_products",
    "Pin.C85_box",
    "Pin.C85_faces",
    "Pin.C85_single_counterexample"
   ],
   "note": "For two sampled degrees of freedom or more: combinations and products are each visited exactly once, every face and sample has its turn, and every velocity formed is in the box. With facet_dims = 1 the claim is false of the code: the first degree of freedom is never sampled and the last is sampled twice (counterexample). The bounds are data; integration, forward kinematics and the collision filter after the velocity are not part of this claim."
  }
 ]
}