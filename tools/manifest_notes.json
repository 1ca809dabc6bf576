{
 "C01": [
  "proved",
  "every reachable construction state, accepted and rejected calls interleaved; mimic joints must mimic an existing joint"
 ],
 "C02": [
  "proved",
  "ancestor relation is a separate inductive definition; the universe is not in its own subtree (C02_universe_counterexample), so subtrees are characterised for joints >= 1"
 ],
 "C03": [
  "partial",
  "proved for every call except a mimic joint whose mimicked joint does not exist yet: there the code throws after changing the model (C03_mimic_counterexample)"
 ],
 "C04": [
  "proved",
  "single-bit frame types (the FrameType enum); masks of several bits can throw (C04_multi_mask_counterexample); inertia conservation for masses that are 0 or at least eps, outside of which operator+ itself is wrong (C08_add_degenerate_counterexample)"
 ],
 "C05": [
  "proved",
  "over any commutative ring"
 ],
 "C06": [
  "proved",
  "over any commutative ring"
 ],
 "C07": [
  "proved",
  "over any commutative ring"
 ],
 "C08": [
  "proved",
  "operator+/- proved when the summed mass is 0 or at least eps; below eps the code is wrong (C08_add_degenerate_counterexample)"
 ],
 "C10": [
  "proved",
  "rotate proved for rotations; for reflections the code differs from R S R^T (C10_rotate_reflection_counterexample)"
 ],
 "C39": [
  "partial",
  "all joint types including composite, derivative via the same code over dual numbers; mimic joints proved when the mimicked joint has a constant motion subspace equal to the one of createData(); for a mimicked helical joint the code is wrong (C39_mimic_helical_counterexample)"
 ],
 "C11": [
  "proved",
  "three overloads of forwardKinematics; velocities and accelerations are also shown to be true derivatives (same code over dual numbers)"
 ],
 "C12": [
  "proved",
  "models without mimic joint accepted by CRBAChecker (depth-first order; C12_order_counterexample otherwise); C12_affine covers mimic joints and any order"
 ],
 "C13": [
  "partial",
  "matrix: proved. computeKineticEnergy = 1/2 v^T M v is proved when every joint type stores joint_v; false for revolute/helical unaligned joints with armature (C13_kinetic_unaligned_counterexample)"
 ],
 "C14": [
  "proved",
  "whole matrix, models without mimic joint accepted by CRBAChecker"
 ],
 "C15": [
  "proved",
  "for every joint type whose bias vanishes at rest (C15_bias_at_rest: all kinematically consistent joints)"
 ],
 "C43": [
  "proved",
  "derivatives via the same formulas over dual numbers; gravity without angular part (as in the default model)"
 ],
 "C16": [
  "proved",
  "Both conventions, with and without external forces, for every packed tree, every joint type and every prior content of data. Hypothesis Regular is the invertibility of the joint-space blocks; C16_blocks shows it is the one of data.joints[i].StU; C16_regular_* show it holds for physical models. The LLT-based inversion of the block is modelled by the exact inverse. C16_local_acceleration_counterexample: the side output data.a of the local convention uses a placement that is never computed."
 ],
 "C41": [
  "proved",
  "assignQuaternion modelled branch by branch over any ordered field with square roots (instance for the reals); conversion to matrix, product, conjugate, two-to-one kernel, and both round trips. slerp and firstOrderNormalize are not part of this claim."
 ],
 "C42": [
  "partial",
  "Dense conversion, left product, solve and explicit inverse proved for every size and coefficients (pivots non-zero, and unconditionally for positive definite matrices). T * mat is only defined for square mat: C42_right_counterexample shows that the code has no defined result for a vector."
 ],
 "C09": [
  "proved",
  "Round trips for every non-zero mass; positive definite pseudo-inertias give physical inertias; log-Cholesky vectors over the reals always give them, and calculateJacobian is the derivative."
 ],
 "C17": [
  "proved",
  "Models without mimic joints and with at least one degree of freedom per joint (Packed, Full); every joint, frame and reference frame; stand-alone functions agree with the two-step ones; columns outside the support are not written."
 ],
 "C44": [
  "partial",
  "Proved with the exact correction term: the pass drops the derivative of the motion subspace, so the claim holds for joints with constant subspace and fails for SphericalZYX (C44_counterexample)."
 ],
 "C18": [
  "partial",
  "C v + g = nle is proved with the exact joint-bias term for all joints (C18_bias); without it, and for C + C^T = dM/dt, for joints with constant motion subspaces (C18_bias_partial, C18_passivity_partial, C18_skew_partial). The claim fails for SphericalZYX (C18_counterexample). getCoriolisMatrix is covered. Models without mimic joints, at least one degree of freedom per joint, depth-first order."
 ],
 "C19": [
  "proved",
  "Total and subtree masses, positions, velocities and accelerations of the centre of mass (with subtrees), time-derivative statements along trajectories, jacobianCenterOfMass, jacobianSubtreeCenterOfMass, getJacobianSubtreeCenterOfMass and getJacobianComFromCrba; models without mimic joints for the Jacobians. Findings: getComFromCrba does not return the centre of mass, jacobianSubtreeCenterOfMass spoils other stored quantities (C19_*_counterexample)."
 ],
 "C20": [
  "proved",
  "computeCentroidalMomentum, computeCentroidalMap, ccrba (Ag, hg, Ig, com) and the Ag left by crba in the world convention, against the sum of the momenta of the bodies about the centre of mass. Maps: models without mimic joints, masses 0 or above the epsilon of Inertia::operator+, total mass non-zero."
 ],
 "C45": [
  "partial",
  "dhg is the derivative of hg for all joints (C45_dhg_derivative). dAg v + Ag a = dhg with the exact joint-bias term (C45_dccrba); without it, and dAg = d/dt Ag column by column, for constant motion subspaces (_partial). Fails for SphericalZYX (C45_counterexample). computeCentroidalMapTimeVariation reads a stale vcom[0] (C45_mapTimeVariation_counterexample; C45_mapTimeVariation_partial when vcom[0] is current)."
 ],
 "C22": [
  "proved",
  "Sparse UDUt factorisation on the tree of rows, products, solves and inverse, for every depth-first tree; pivots of positive definite matrices are positive; composed with crba and rnea. Exact arithmetic. Joints without degree of freedom are excluded (Sys.Full)."
 ],
 "C23": [
  "proved",
  "C23_minverse: inverse of the kinetic-energy matrix for every history; C23_crba and C23_cholesky relate it to crba and cholesky::computeMinv; C23_aba to aba."
 ],
 "C46": [
  "partial",
  "Proved after aba with Convention::WORLD (with and without external forces). False after aba with the default Convention::LOCAL: C46_counterexample, because data.J is not filled and U is in joint frames."
 ],
 "C36": [
  "proved",
  "findCommonAncestor on every reachable model: deepest common ancestor and its two positions; rejects other indices"
 ],
 "C47": [
  "proved",
  "getRelativePlacement, both conventions, after forwardKinematics on every reachable model"
 ],
 "C40": [
  "partial",
  "C40_torque: regressor times parameters is rnea minus armature*a, for every tree; C40_partial: equal to rnea when there is no rotor inertia. The literal statement is false with a non-zero armature (C40_counterexample): rnea adds armature*a and the regressor has no column for it. Also body, kinetic-energy, potential-energy, static and kinematic regressors. Models without mimic joints."
 ],
 "C28": [
  "proved",
  "Every history of addGeometryObject (both overloads) / addCollisionPair / removeCollisionPair / addAll / removeAll / setCollisionPairs calls, exceptions caught, against a set of unordered pairs; the only precondition is a valid frame index for addGeometryObject(object, model), whose bound is not checked by the code."
 ],
 "C29": [
  "partial",
  "The claim is false of the code: C29_counterexample (stale collisionPairMapping: queries wrong, duplicates can be added), C29_undefined (iterator decremented before begin()). Proved: the list of pairs and objects is right whenever the call is defined (C29_list), the registry stays consistent when no pair mentions the object or a later one (C29_partial), removeAll/addAll/setCollisionPairs repair it (C29_recovery). appendGeometryModel has the same flaw (C29_append)."
 ],
 "C30": [
  "proved",
  "Per call and over every history from the constructor; also security margins and inner/outer maps."
 ],
 "C33": [
  "proved",
  "Interleaving semantics of the OpenMP loop (every thread count, every schedule, arbitrary previous data). Sequential consistency assumed; num_threads=0 not rejected by the code. abaInParallel does not check tau (C33_aba_checks_counterexample)."
 ],
 "C34": [
  "partial",
  "Exact effect of resize proved (C34_resize); invariant proved for histories whose growths at most double the size; false beyond that (C34_counterexample), existing entries are overwritten (C34_overwrites), geometry pools are never completed (C34_geometry_counterexample)."
 ],
 "C35": [
  "proved",
  "Every interleaving of single accesses to the shared flag/index/results; batch versions with and without stop. collisionPairIndex and the stop-in-batch results are schedule dependent (counterexample theorems). Sequential consistency assumed."
 ],
 "C31": [
  "proved",
  "Every mu >= 0 for the cone, mu > 0 for isInside and the dual projection; C31_isInside_counterexample and C31_dual_counterexample show that both fail for mu = 0, which the code accepts."
 ],
 "C32": [
  "partial",
  "Iterates are always in the cones, fixed points are exactly the solutions, relative success is honest; success by absolute precision is not (C32_counterexample): the residual is computed from an overwritten velocity."
 ],
 "C48": [
  "proved",
  "The linear solve of the damped Delassus operator is assumed exact. Spectral initialisation of rho is not modelled: any positive rho."
 ],
 "C49": [
  "partial",
  "Feasibility and fixed points proved for the problem without correction. C49_correction_*: constraint_correction is ignored. C49_fresh_data_counterexample: undefined behaviour without a guess on a fresh Data."
 ],
 "C50": [
  "proved",
  "mu > 0."
 ],
 "C51": [
  "partial",
  "Proved for contacts with the environment; C51_counterexample: same-sign forces on both bodies."
 ],
 "C24": [
  "proved",
  "For every reachable model and all previous contents of the outputs. Exact round trips on vector spaces, SO(2) (including the antipode; velocities in (-pi, pi]) and, beyond the property, SE(2) when the angle is zero or at least 1e-4 (below, the code uses a Taylor series). Zero velocity and zero difference are exact for every group, SO(3) and SE(3) included. Scalars are reals; rounding is not modelled."
 ],
 "C25": [
  "partial",
  "SO(2) fully (quadratic contraction, never grows, exact unit kept). SO(3)/SE(3): error e goes to at most (e + 3/2 d)^2 and stays below max(e0, 7 d^2) for any number of calls, d = eps^(3/4)/23040; 'exactly unit stays exactly unit' is false for SO(3) in exact arithmetic (counterexample). SE(2): the norm is exactly preserved but never corrected."
 ],
 "C26": [
  "partial",
  "u = 0 for every joint type. u = 1 for vector spaces, SO(2) away from the antipode, SE(2) with angle zero or at least 1e-4. Counterexample: on SO(2) interpolation to the opposite orientation returns q0 for every u. Missing: SO(3)/SE(3) at u = 1 (approximate in the code)."
 ],
 "C27": [
  "proved",
  "For every reachable model, composite and mimic joints included: segments tile the vectors, each is written with its joint's result, nothing else is written, results do not depend on the output's previous content. Also normalize/isNormalized/neutral, squaredDistanceSum and distance."
 ],
 "C21": [
  "partial",
  "For every history of 50 kinds of calls (32 algorithms, 18 continuations, any arguments) on a fresh data, the documented results of the next call are those on a fresh data (C21_history, C21_two_histories); for all but crba, computeCoriolisMatrix and the kinetic energy whatever data contains (C21_any_content). Trees without mimic joints in depth-first order. The literal statement is false for squaredDistance (C21_squaredDistance_counterexample, accumulates into out), for crba on a data whose M was overwritten by the user (C21_content_counterexample) and for computeCentroidalMapTimeVariation (C45_mapTimeVariation_counterexample, stale vcom[0])."
 ],
 "C38": [
  "partial",
  "Proved for every model built by construction calls with parameters then set to any values, every list of joints to lock and every reference configuration, when the call returns: names, order, types, sizes, limits, friction, damping, rotor parameters, parents, placements, mimic targets, inertias, total mass, frames, placements, velocities, inverse dynamics, mass matrix. False as stated: the armature is dropped (C38_armature_counterexample), mass can be lost when a fixed frame has a joint's name (C38_mass_counterexample), and some calls are undefined behaviour (C38_ub_counterexample). Not proved: that the call returns for every model with joint frames; dynamics with mimic joints."
 ],
 "C37": [
  "partial",
  "Holds of the joints (each once, names, types, sizes, limits, friction, damping, rotor parameters, parents, placements), mimic joints, masses, frames, placements and velocities; inertias, kinetic energy and mass matrix when no frame carries an inertia. Fails for the armature (dropped), for inertias when a frame carries one, for models with a body frame named as a joint (refused), and with undefined behaviour when a descendant of the joint of the frame mimics a joint copied later (four counterexamples). Geometry and reference configurations are not modelled."
 ],
 "C52": [
  "partial",
  "Proved by running forwardKinematics on dual numbers. LOCAL and WORLD velocities, LOCAL accelerations, points in both frames: exact derivatives for any zero-initialised output. WORLD and LOCAL_WORLD_ALIGNED accelerations: the exact error is proved; it is zero when only joints attached to the universe have several degrees of freedom, and a counterexample shows it is not zero in general. LOCAL_WORLD_ALIGNED velocity derivatives are those of the WORLD velocity moved to the joint origin, not of getVelocity. Excluded: joints whose motion subspace depends on the configuration (counterexample with SphericalZYX) and mimic joints."
 ],
 "C53": [
  "partial",
  "proved for joints with a constant motion subspace (all but SphericalZYX, Universal, ellipsoid, composite) and models without mimic joint; the condition is needed. The overload with external forces leaves the armature out of rnea_partial_da (counterexample)."
 ],
 "C54": [
  "partial",
  "Proved for every tree of joints with a constant motion subspace (not SphericalZYX, universal, ellipsoid), when the entries between different branches of data.dtau_dq and data.dtau_dv are zero, which the call keeps; both conditions are shown necessary. The overloads without q, v, tau need aba in the world convention; with the default convention they are shown wrong. data.ddq and the inverse inertia are proved without these conditions. Models with mimic joints are rejected by the code."
 ],
 "C55": [
  "partial",
  "Proved over dual numbers for joints whose motion subspace is constant (the ZYX case is a counterexample), for the first call of getCentroidalDynamicsDerivatives after computeRNEADerivatives without external forces (calling twice and external forces are counterexamples), and for the velocity of the centre of mass when no subtree is massless."
 ],
 "C56": [
  "partial",
  "All documented fields proved equal, except data.dhg (proved up to the weight and the previous data.f[0]; counterexamples) and getJacobianSubtreeCenterOfMass afterwards (counterexample). Gravity: fields without angular part. Models without mimic joints."
 ],
 "C57": [
  "partial",
  "Derivatives proved where the code leaves its expansions (not small angles) and away from the singularities (full turns for Jexp6, half turns for logarithms); two counterexamples show the expansions of Jexp3 and Jexp3CoeffWise have wrong coefficients, one that Jexp6 divides by zero at a full turn, one that SETTO leaves stale entries beside the blocks. exp3 bound holds for every argument. integrateCoeffWiseJacobian for vector spaces, SO(2), SE(2) only."
 ],
 "C58": [
  "proved",
  "exact arithmetic; sqrt assumed to be a square root on the positive pivots (Real.sqrt is); Eigen::LLT modelled as the exact solution of the linear system"
 ],
 "C59": [
  "partial",
  "Jacobians, span, stacking and derivatives proved in full; jacobian_matrix_product is proved equal to the product for CONTACT_3D in LOCAL and C59_product_counterexample shows that it ignores the reference frame."
 ],
 "C60": [
  "proved",
  "Models without mimic joint; exact arithmetic. compute with as many constraints as allocate but of other sizes is outside the model. The overloads on matrices apply the vector functions to each column."
 ],
 "C61": [
  "partial",
  "Equations of motion, constraint up to mu times the relative residual, exactness and uniqueness, convergence of the proximal loop, forces, crba outputs, impacts against the universe and exceptions proved. False of the code and shown by witnesses: the absolute residual does not measure the constraint; max_iter = 0 returns torques; impacts between two moving bodies ignore the second one. Hypothesis: max_iter at least 1."
 ],
 "C62": [
  "partial",
  "C62_model for models without mimic joint (any nesting of composite joints, any target, any format); C62_mimic_partial with mimic joints; C62_geometry without materials. The missing parts are false: counterexamples for mimic sizes, the string format with infinite limits, materials, mimic targets. Data, StaticBuffer, and the character encoding of the archives are not modelled."
 ],
 "C63": [
  "partial",
  "C63_equal_partial for the members compared; C63_refl; C63_loaded; C63_cast_structure for every conversion; C63_cast_partial without mimic joints. The rest is false: counterexamples for helical and mimic joints, names of reference configurations, supports, cast of mimic joints."
 ],
 "C64": [
  "partial",
  "Proved for every description with fresh names. Not so, each with a counterexample: a joint named like the root joint, a fixed joint named universe, mimic joints with an axis that is not a coordinate axis, mimic of a mimic joint, mimic of or on a continuous joint, the axis of planar joints. Not modelled: the XML reader (urdfdom), geometries, the mjcf and sdf parsers."
 ],
 "C65": [
  "proved",
  "Over the real numbers, with real derivatives. eulerAngles(2,1,0) is modelled from Eigen 3.3/3.4. A roll of exactly half a turn with a negative yaw is returned as minus half a turn (counterexample to the exact round trip on the closed range, the orientation is the same)."
 ],
 "C66": [
  "partial",
  "Proved for every reachable model without mimic joints whose joints all have a degree of freedom. With mimic joints the property fails: wrong nvSubtree, duplicated rows in supports_fromRow, out-of-range reads (counterexamples)."
 ],
 "C67": [
  "partial",
  "WORLD and LOCAL_WORLD_ALIGNED proved for all models with constant motion subspaces; LOCAL proved when joints that are not attached to the universe have one degree of freedom, with the exact error otherwise and a counterexample (spherical joint behind a revolute joint)."
 ],
 "C68": [
  "partial",
  "Proved for the dense operator, in exact arithmetic and for any rounding. The sparse operator is proved in exact arithmetic with a decomposition that reorders the unknowns; three counterexamples: natural ordering, rounding drift of the damped matrix, silent failure."
 ],
 "C69": [
  "partial",
  "Largest eigenvalue and NaN are proved for every symmetric matrix; the lowest one is above the spectrum bound only when the largest one found is at least the middle of the spectrum. Counterexamples: start orthogonal to the eigenvector, multiples of the identity (NaN), negative matrices, stop at the first iteration, lowest below the spectrum."
 ],
 "C70": [
  "partial",
  "Distances and the enclosing radius are proved for all inputs. The radius is the distance of a corner only on geometry data just built: a second call never lowers a radius (counterexample)."
 ],
 "C71": [
  "partial",
  "Proved in exact real arithmetic for every symmetric operator. Two clauses are false of the code: rank() after an early stop, and the columns beyond the stop."
 ],
 "C72": [
  "partial",
  "Proved for frames that are not attached to the universe, when the forward kinematics (with accelerations) is run as well as rnea, and with all the joints supported by the joint of the frame (not only those attached after the frame). Counterexamples for the three other cases, and for the documented equivalence with model.inertias."
 ],
 "C73": [
  "partial",
  "Exact characterisation of the pairs looked at: proved equal to the exhaustive query when no geometry is flat; the tree of managers leaves out the pairs of one joint (counterexample). The collision library is an assumption (boxes enclose, overlapping pairs are presented, the narrow phase respects the security margin); break_distance is assumed non-negative."
 ],
 "C74": [
  "partial",
  "Proved for finite limits whose difference times RAND_MAX does not overflow; with the default limits of addJoint the result is never finite (counterexample). Coverage is for real draws; rand() gives a grid of them. Rounding is not modelled, overflow is."
 ],
 "C75": [
  "partial",
  "C75_pairs, C75_reference and C75_rotor give the exact effect of the three readers on well-formed documents. The last part of the statement is false (counterexamples): a tag that names the universe is undefined behaviour, a repeated group keeps the first although the warning says the last, values are stored without normalisation, a rejected rotor document leaves the model partly modified, rereading it doubles the armature, and removeCollisionPairs after appendGeometryModel is undefined behaviour. XML syntax is not modelled."
 ],
 "C76": [
  "partial",
  "Proved for contacts on a joint of the model, for the frames the code uses: C76_delassus (every block of the upper triangle), C76_definite, C76_undamped, C76_damped_inverse, C76_refused. The full statement fails: joint2 and the reference frame of a contact are ignored (C76_ignores, C76_joint2_counterexample), a contact on the universe is undefined behaviour (C76_universe_counterexample), the lower triangle keeps its old contents (C76_lower_counterexample). The Pv variant is C82. Not modelled: mimic joints."
 ],
 "C77": [
  "partial",
  "Proved for every constructed model and pair of joints, for lists of pairs whose followed and turned joints are distinct, and for the motion (C77_kinematics) and the inverse dynamics. False parts: the number of joints is accepted as an index (C77_bound_counterexample); the armature of the turned joint is lost (C77_armature_counterexample); turning a joint that is already followed gives wrong motion without an error (C77_chain_counterexample). Motion theorems assume the same number of velocity coordinates of the two joints and a motion subspace that does not depend on the configuration. Not modelled: the reference configurations, which the code copies with the old size."
 ],
 "C78": [
  "proved",
  "Both conventions, for all models that meet the restrictions listed in the statement; each restriction is shown necessary by a counterexample (finding)."
 ],
 "C79": [
  "partial",
  "Equations of motion, contact accelerations, layout of the multipliers, uniqueness and independence of the history of calls are proved in full for gravity without angular part. The clause on the corrector is proved for the placement and velocity that the contact data hold at the call (C79_feedback_partial), and is false of the state of the robot: pv reads the velocity before writing it, never computes the placement, ignores the desired acceleration (counterexamples). The multipliers are minus the contact forces."
 ],
 "C80": [
  "partial",
  "Equations of motion with the multipliers that the call adds and the penalty, contact accelerations up to the residual, for every history (C80_equations); exact when the residual is zero, unique and equal to pv (C80_exact, C80_solution, C80_pv); bound on the equations with data.lambdaA[0] after initPvSolver (C80_multiplier). Gravity without angular part. False, with counterexamples: lambdaA[0] accumulates over calls, the first residual is read before the accelerations are computed so that equal calls differ, the residual is not written with max_iter = 1, a call to pv before it on the same data changes the system. The corrector is as in C79. Convergence to any positive tolerance, with an explicit bound on max_iter, whenever the constraints can be met (C80_converges)."
 ],
 "C81": [
  "partial",
  "Proved for at most one contact per joint and with the multiplier contact_force + mu * bias acceleration: equations of motion from any state, residual, convergence to any tolerance with an explicit bound on the iterations whenever a solution exists, uniqueness, independence of history. False in the code: contact_force itself (the bias counts twice; its sign), several contacts on one joint (only the last acts), settings.iter (always 0), the residual on max_iter."
 ],
 "C82": [
  "partial",
  "Proved for tables written by one initPvDelassus on new tables and contacts on joints of the model: C82_tables (what the tables hold), C82_delassus (every block of the upper triangle; any number of calls), C82_agrees (same entries as computeDelassusMatrix), C82_damped_inverse, C82_refused. The full statement fails: calling initPvDelassus again on the same data duplicates the accumulation joints and the matrix is wrong (C82_reinit_counterexample). As in C76, joint2 and the reference frame of a contact are not read. Not modelled: mimic joints, a contact on the universe."
 ],
 "C83": [
  "partial",
  "All eight functions with the three operators, on any number of columns and any placement of the blocks that writes no input column before it is read. The placement actions and motionSet::motionAction are proved in place too. forceSet::motionAction, motionSet::inertiaAction and motionSet::act with plain assignment are proved except in place, where they are wrong (counterexamples); += and -= in place are proved. A forward overlap of blocks acts twice on a column (counterexample)."
 ],
 "C84": [
  "proved",
  "Input and output are distinct objects: the code writes noalias products, so that a call in place is outside its contract and not modelled."
 ],
 "C85": [
  "partial",
  "For two sampled degrees of freedom or more: combinations and products are each visited exactly once, every face and sample has its turn, and every velocity formed is in the box. With facet_dims = 1 the claim is false of the code: the first degree of freedom is never sampled and the last is sampled twice (counterexample). The bounds are data; integration, forward kinematics and the collision filter after the velocity are not part of this claim."
 ]
}