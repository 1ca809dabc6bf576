#!/usr/bin/env python3
"""Single source for /verif/properties.jsonl (run to regenerate)."""
import json, os
P=[]
def p(title, statement, quantifier, why, anchors):
    P.append(dict(id="C%02d"%(len(P)+1), title=title, statement=statement, quantifier=quantifier,
                  why_tests_cant=why, anchors=anchors))
MB="include/pinocchio/multibody/"; AL="include/pinocchio/algorithm/"; SP="include/pinocchio/spatial/"; MA="include/pinocchio/math/"

p("Model construction keeps all joint tables consistent",
  "Starting from an empty Model, after any sequence of successful or rejected addJoint calls (interleaved with frame/body additions) every per-joint table has njoints entries, parents[i] < i for every joint i>=1, idx_q/idx_v of consecutive joints partition [0,nq) and [0,nv) with no gap or overlap, and children[p] lists exactly the joints whose parent is p.",
  "every finite history of addJoint/appendBodyToJoint/addFrame/addJointFrame/addBodyFrame calls with arbitrary arguments",
  "The set of construction histories is infinite; a test only samples a few robot trees.",
  [MB+"model.hpp: ModelTpl()", MB+"model.hxx: addJoint, addJointFrame, addFrame, appendBodyToJoint"])
p("supports and subtrees describe the kinematic tree exactly",
  "After any construction history, supports[j] is exactly the path of ancestors from the universe to j, subtrees[i] (i>=1) contains exactly the joints having i on their support, each once and in increasing order, so j is in subtrees[i] iff i is in supports[j].",
  "every construction history and every pair of joints",
  "Tree shapes and insertion orders are unbounded.",
  [MB+"model.hxx: addJoint, addJointIndexToParentSubtrees"])
p("A rejected construction call leaves the Model unchanged and lookups by name are sound",
  "addJoint throws exactly when a limit vector has the wrong size or the parent index is not an existing joint, and then no field of the Model changes. getJointId(name) returns the lowest joint id with this name, or njoints iff no joint has it; existJointName agrees.",
  "every reachable Model and every argument tuple",
  "Exception-safety must hold for every failing input at every state.",
  [MB+"model.hxx: addJoint, getJointId, existJointName", "include/pinocchio/macros.hpp: PINOCCHIO_CHECK_ARGUMENT_SIZE"])
p("Frame registration never creates an ambiguous frame and conserves inertia",
  "After any construction history no two frames share a name with overlapping type masks unless added through distinct types; adding an already existing frame returns its index and changes nothing; getFrameId(name,type) never throws 'several frames' on a reachable model for single-type masks; and the spatial inertia of each joint equals the sum of the inertias appended to it through appendBodyToJoint and addFrame.",
  "every construction history, every frame name and type",
  "Histories are unbounded and the property is global over all pairs of frames.",
  [MB+"model.hxx: addFrame, getFrameId, existFrame, appendBodyToJoint"])
p("SE3 is a group acting on points, motions, forces and inertias",
  "For rigid transforms: composition is associative, identity is neutral, M*M.inverse() is the identity, act/actInv are mutually inverse on points, motions, forces, inertias and SE3, act of a product is the composition of the acts, and the rotation part stays a rotation (orthogonal, det 1) under composition and inversion.",
  "all SE3 elements with a rotation matrix, all points/motions/forces/inertias, over any commutative ring of scalars",
  "Algebraic identities over a continuum.",
  [SP+"se3-tpl.hpp", SP+"motion-dense.hpp", SP+"force-dense.hpp", SP+"inertia.hpp: se3Action_impl"])
p("6x6 action matrices agree with the structured actions",
  "toActionMatrix()*v.toVector() equals act(v).toVector(), toActionMatrixInverse likewise for actInv, toDualActionMatrix for forces; the action matrix of a product is the product of action matrices, dual action matrix is the inverse transpose; toActionMatrix of motion equals the cross operator.",
  "all SE3 elements, motions and forces", "Algebraic identities over a continuum.",
  [SP+"se3-tpl.hpp: toActionMatrix_impl, toActionMatrixInverse_impl, toDualActionMatrix_impl", SP+"motion-dense.hpp: toActionMatrix_impl, toDualActionMatrix_impl"])
p("Motion/force duality, power invariance and Lie algebra laws",
  "The power v.dot(f) is invariant under a change of frame; the motion cross product is a Lie bracket (antisymmetric, Jacobi) preserved by SE3 actions; the dual cross satisfies <v x w, f> = -<w, v x* f>.",
  "all motions, forces and rigid transforms", "Algebraic identities over a continuum.",
  [SP+"motion-dense.hpp: motionAction, dot", SP+"force-dense.hpp: motionAction, se3Action_impl"])
p("Compact spatial inertia operations agree with 6x6 matrices",
  "I*v equals I.matrix()*v, which is symmetric; vtiv(v) = v.dot(I*v); (M.act(I))*(M.act(v)) = M.act(I*v); (I1+I2)*v = I1*v + I2*v and the subtraction undoes the addition when masses are not degenerate; I.inverse() is the inverse of I.matrix(); variation/vxiv/ivx match the bracket formulas.",
  "all inertias (mass, lever, symmetric rotational part), all motions and rigid transforms, exact arithmetic",
  "Algebraic identities over a continuum.",
  [SP+"inertia.hpp: __mult__, __plus__, __mequ__, vtiv_impl, matrix_impl, inverse_impl, se3Action_impl, variation, vxiv, ivx", SP+"symmetric3.hpp"])
p("Inertial parametrisations round-trip and produce physical inertias",
  "FromDynamicParameters(I.toDynamicParameters()) = I for non-zero mass, pseudo-inertia and dynamic-parameter conversions are mutually inverse, and every log-Cholesky parameter vector yields an inertia with positive mass whose pseudo-inertia matrix is positive definite.",
  "all inertias with non-zero mass; all log-Cholesky parameter vectors (over the reals)",
  "Round trips and positivity over a continuum of parameters.",
  [SP+"inertia.hpp: toDynamicParameters, FromDynamicParameters, PseudoInertiaTpl, LogCholeskyParametersTpl"])
p("Symmetric3 packed arithmetic equals full 3x3 matrix arithmetic",
  "Packed symmetric-matrix operations (product with a vector, vtiv, rotation R S R^T, skew-square, addition of -m[c]x^2 terms, inverse) produce the same result as the corresponding dense 3x3 matrix expressions.",
  "all symmetric matrices, vectors and rotations", "Algebraic identities over a continuum; hand-expanded formulas.",
  [SP+"symmetric3.hpp: rhsMult, vtiv, rotate, SkewSquare, AlphaSkewSquare, inverse, decomposeltI"])
p("Forward kinematics equals the product of transforms along the support",
  "After forwardKinematics(model,data,q), data.oMi[j] is the product along the support of j of jointPlacement*jointTransform; it is a rigid transform; data.v[j] is the sum of the joint velocities of the ancestors transported to j; results do not depend on the previous contents of data.",
  "every model tree, configuration, velocity and prior Data content", "Unbounded tree sizes and histories.",
  [AL+"kinematics.hxx: ForwardKinematicZeroStep, ForwardKinematicFirstStep, ForwardKinematicSecondStep"])
p("Inverse dynamics is affine in acceleration with CRBA as its linear part",
  "For every model, rnea(q,v,a) = M(q)*a + nonLinearEffects(q,v), where M is the symmetric matrix whose upper triangle crba returns (armature included).",
  "every kinematic tree in depth-first joint order, all joint types in the model, all q,v,a, all prior Data contents",
  "Relates three recursive algorithms on arbitrary trees.",
  [AL+"rnea.hxx: RneaForwardStep, RneaBackwardStep, NLEForwardStep, NLEBackwardStep", AL+"crba.hxx"])
p("The joint-space inertia matrix is the kinetic-energy form: symmetric, positive semi-definite",
  "w^T M(q) w = sum over bodies of (J_i w).(I_i (J_i w)) plus armature terms; so M is symmetric, M is positive semidefinite for physically consistent inertias, and computeKineticEnergy(q,v) = 1/2 v^T M v.",
  "every tree, configuration and velocity", "Unbounded trees and a continuum of configurations.",
  [AL+"crba.hxx", AL+"energy.hxx: computeKineticEnergy"])
p("Local and world CRBA conventions return the same matrix",
  "crba with Convention::LOCAL and Convention::WORLD write the same upper-triangular entries for every descendant column.",
  "every depth-first-ordered tree and configuration, all prior Data", "Two different recursions over arbitrary trees.",
  [AL+"crba.hxx: CrbaWorldConvention*, CrbaLocalConvention*"])
p("External forces enter inverse dynamics through the transposed joint Jacobians",
  "rnea(q,v,a,fext) = rnea(q,v,a) - sum_i J_i(q)^T fext_i; computeStaticTorque(q,fext) = computeGeneralizedGravity(q) - sum_i J_i^T fext_i; computeGeneralizedGravity(q) = nonLinearEffects(q,0) = rnea(q,0,0).",
  "every tree, configuration, velocity, acceleration and external wrench vector", "Unbounded trees; relates several recursions.",
  [AL+"rnea.hxx: rnea(fext), computeGeneralizedGravity, computeStaticTorque", AL+"jacobian.hxx"])
p("Forward dynamics inverts inverse dynamics",
  "aba(q,v,rnea(q,v,a,fext),fext) = a and rnea(q,v,aba(q,v,tau,fext),fext) = tau whenever every articulated joint-space block met by the recursion is invertible.",
  "every tree, every q,v,a/tau,fext and prior Data, for local and world conventions", "Two recursions on arbitrary trees are inverse of each other.",
  [AL+"aba.hxx: AbaLocalConvention*, AbaWorldConvention*", AL+"rnea.hxx"])
p("Jacobians map joint velocity to the spatial velocity of forward kinematics",
  "For every joint/frame and each reference frame (LOCAL, WORLD, LOCAL_WORLD_ALIGNED), J(q)*v equals the velocity returned by the forward kinematics in this reference frame; columns of joints that do not support the joint are zero; the stand-alone computeJointJacobian agrees with computeJointJacobians + getJointJacobian.",
  "every tree, joint, configuration and velocity", "Unbounded trees and configurations.",
  [AL+"jacobian.hxx: computeJointJacobians, getJointJacobian, computeJointJacobian", AL+"frames.hxx: getFrameJacobian, getFrameVelocity"])
p("Coriolis matrix reproduces the bias torque and keeps the passivity property",
  "computeCoriolisMatrix(q,v)*v + generalizedGravity(q) = nonLinearEffects(q,v), and C + C^T is the time derivative of M along v, so M_dot - 2C is skew.",
  "every tree, q, v", "Relates recursions over arbitrary trees.",
  [AL+"rnea.hxx: CoriolisMatrixForwardStep, CoriolisMatrixBackwardStep"])
p("Centre of mass and its Jacobian",
  "centerOfMass(q) is the mass-weighted average of the body centres of mass in the world frame; subtree masses add up (mass[0] is the total mass); jacobianCenterOfMass(q)*v = vcom[0].",
  "every tree with non-zero subtree masses, q and v", "Unbounded trees; recursion with divisions.",
  [AL+"center-of-mass.hxx"])
p("Centroidal momentum is conserved bookkeeping of body momenta",
  "ccrba: Ag(q)*v = hg, hg is the sum of the body momenta expressed at the centre of mass, its linear part is total mass times vcom, computeCentroidalMomentum returns the same hg.",
  "every tree, q, v and prior Data", "Relates several recursions over arbitrary trees.",
  [AL+"centroidal.hxx: ccrba, computeCentroidalMomentum, computeCentroidalMap"])
p("Results do not depend on what Data was used for before",
  "Each algorithm's documented outputs depend only on the model and the arguments, never on the previous content of data.",
  "every prior Data content (equivalently every call history)", "Histories are unbounded; stale reads appear only after particular call orders.",
  [AL+"rnea.hxx", AL+"crba.hxx", AL+"aba.hxx", AL+"centroidal.hxx: computeCentroidalMapTimeVariation", AL+"joint-configuration.hxx: squaredDistance"])
p("Sparse Cholesky factorisation of the mass matrix",
  "cholesky::decompose computes U unit upper triangular with the tree sparsity and diagonal D such that U*D*U^T = M for every matrix with the branch-induced sparsity of the tree, provided the pivots are non-zero; solve(data,b) returns M^{-1} b; UDUtv returns M v; computeMinv returns the inverse.",
  "every depth-first-ordered tree, every tree-sparse symmetric matrix, every right-hand side", "Unbounded sizes; sparsity-exploiting index arithmetic.",
  [AL+"cholesky.hxx: decompose, solve, Uv, Utv, Uiv, Utiv, UDUtv, Miunit, computeMinv", MB+"data.hxx: computeParents_fromRow, computeLastChild"])
p("computeMinverse returns the inverse of the CRBA matrix",
  "computeMinverse(model,data,q) returns Minv with Minv*M = I where M is the CRBA matrix, whenever the articulated blocks are invertible.",
  "every depth-first-ordered tree and configuration", "Relates two recursions over arbitrary trees.",
  [AL+"aba.hxx: computeMinverse"])
p("Configuration-space integrate/difference are inverse to each other",
  "integrate(q0, difference(q0,q1)) = q1 and difference(q, integrate(q,v)) = v for vector-space, SO(2), translation joints (for |angle|<pi) with normalised inputs, segment by segment for every model.",
  "every model built from these joints, all configurations and admissible velocities", "Continuum of inputs and unbounded models.",
  [MB+"liegroup/vector-space.hpp", MB+"liegroup/special-orthogonal.hpp", AL+"joint-configuration.hxx"])
p("Repeated integration never drifts off the configuration manifold",
  "Starting from a configuration whose unit-norm error is at most 1/2, after any number of integrate calls with arbitrary velocities the unit-norm error |n^2-1| of every SO(2)/SO(3)/SE(3) segment stays at most the initial error and contracts quadratically; with exact unit norm it remains exactly unit.",
  "every velocity sequence of every length", "Unbounded histories.",
  [MB+"liegroup/special-orthogonal.hpp: integrate_impl", MB+"liegroup/special-euclidean.hpp: integrate_impl", MA+"quaternion.hpp: firstOrderNormalize"])
p("Interpolation starts at q0 and ends at q1",
  "interpolate(q0,q1,0) = q0 and interpolate(q0,q1,1) = q1 for every pair of valid configurations.",
  "every pair of normalised configurations, every joint", "Continuum of inputs; fails only on a measure-zero antipodal set tests do not hit.",
  [MB+"liegroup/special-orthogonal.hpp: interpolate_impl", MB+"liegroup/liegroup-base.hxx: interpolate_impl"])
p("Model-level configuration functions act joint by joint on disjoint segments",
  "integrate/difference/interpolate/neutral/normalize write each joint's segment with this joint's Lie-group result, every entry of the output exactly once, and are independent of the output's previous content.",
  "every model, all inputs and previous output contents", "Unbounded models.",
  [AL+"joint-configuration.hxx", MB+"liegroup/liegroup-algo.hxx"])
p("Collision-pair registry behaves as a set of unordered pairs",
  "After any sequence of addGeometryObject/addCollisionPair/removeCollisionPair/addAllCollisionPairs/removeAllCollisionPairs/setCollisionPairs, existCollisionPair(p) holds iff p is in the list of pairs up to order, findCollisionPair returns its position, the list has no duplicate and no self pair, and all indices are valid.",
  "every operation history", "Unbounded histories over a redundant list + matrix representation.",
  [MB+"geometry.hxx: addGeometryObject, addCollisionPair, removeCollisionPair, addAllCollisionPairs, setCollisionPairs, existCollisionPair, findCollisionPair"])
p("Removing a geometry object keeps the collision-pair registry consistent",
  "After removeGeometryObject(name), the remaining pairs are those not mentioning the object with indices renumbered, and existCollisionPair/findCollisionPair agree with that list.",
  "every reachable GeometryModel and object name", "Unbounded histories; needs the interaction of two representations.",
  [MB+"geometry.hxx: removeGeometryObject"])
p("Collision-pair activation flags",
  "GeometryData activation calls change exactly the requested pairs; activateAll/deactivateAll set all; setGeometryCollisionStatus changes exactly the pairs containing this geometry; setActiveCollisionPairs copies the (upper or lower) map.",
  "every GeometryModel/GeometryData state and argument", "Unbounded number of pairs and histories.",
  [MB+"geometry.hxx: activateCollisionPair, activateAllCollisionPairs, setGeometryCollisionStatus, setActiveCollisionPairs"])
p("Coulomb friction cone projection is the Euclidean projection",
  "project(x) lies in the cone, equals x iff x is in the cone, is idempotent and no point of the cone is closer to x; the same for the dual cone; Moreau decomposition holds.",
  "all x in R^3 and friction coefficients mu >= 0 (mu > 0 where needed)", "Continuum, universally quantified optimality.",
  [AL+"constraints/coulomb-friction-cone.hpp: project, isInside"])
p("Projected Gauss-Seidel returns feasible forces and honest convergence",
  "Every iterate of PGSContactSolver::solve lies in the product of friction cones, and when solve reports success by absolute precision the returned force satisfies the cone complementarity problem within that precision.",
  "all Delassus matrices, offsets, initial guesses, iteration counts", "Unbounded iteration counts, all inputs.",
  [AL+"pgs-solver.hxx: PGSContactSolverTpl::solve"])
p("Batched parallel evaluation is independent of thread count and schedule",
  "rneaInParallel/abaInParallel produce, for every number of threads and every schedule, exactly the column-wise sequential results provided all models of the pool are equal.",
  "every interleaving of batch columns over threads", "Interleavings cannot be enumerated by tests.",
  [AL+"parallel/rnea.hpp: rneaInParallel", AL+"parallel/aba.hpp", MB+"pool/model.hpp"])
p("Resizing a ModelPool preserves the pool invariant",
  "After any sequence of resize/update calls every model of the pool equals the pool's model and every data was built from it; existing entries are preserved.",
  "every sequence of pool sizes", "Unbounded histories.",
  [MB+"pool/model.hpp: doResize, update"])
p("Parallel collision query is schedule independent",
  "computeCollisionsInParallel returns true iff some active pair collides, for every schedule of the loop iterations; with stopAtFirstCollision disabled all per-pair results equal the sequential ones.",
  "every interleaving of loop iterations over threads", "Interleavings cannot be enumerated by tests.",
  ["include/pinocchio/collision/parallel/geometry.hpp: computeCollisionsInParallel"])
p("findCommonAncestor returns the deepest common ancestor",
  "findCommonAncestor(j1,j2) returns a joint that is on both supports, is deeper than any other common ancestor, and reports its position in both supports.",
  "every tree and pair of joints", "Unbounded trees.",
  [AL+"model.hxx: findCommonAncestor"])
p("appendModel preserves total mass and joint parameters",
  "appendModel(A,B,frame,M) yields a model containing each joint of A and B once, with the same inertias and joint parameters (limits, friction, damping, armature, rotor parameters).",
  "every pair of models", "Unbounded models.",
  [AL+"model.hxx: appendModel, appendUniverseToModel, AppendJointOfModelAlgoTpl"])
p("buildReducedModel conserves mass and unlocked joint parameters",
  "Locking joints conserves the total mass and each remaining joint's parameters; kept joints keep their relative order. When the locked joints stay at the reference configuration, every body is at the same place and moves with the same velocity as in the full model, and the kept joints have the same torques and mass matrix. Frames are kept at their places.",
  "every model, list of locked joints and reference configuration", "Unbounded models and subsets.",
  [AL+"model.hxx: buildReducedModel"])
p("Joint models: subspace, velocity and bias are consistent",
  "For every joint type, the joint velocity is S(q)*v, the rotation of the joint transform is a rotation, and S is the derivative of the joint transform (M^{-1} dM = S dq), bias is S_dot*v.",
  "every joint type and every configuration/velocity", "Continuum of inputs.",
  [MB+"joint/joint-revolute.hpp", MB+"joint/joint-prismatic.hpp", MB+"joint/joint-spherical.hpp", MB+"joint/joint-spherical-ZYX.hpp", MB+"joint/joint-universal.hpp", MB+"joint/joint-planar.hpp", MB+"joint/joint-helical.hpp", MB+"joint/joint-free-flyer.hpp", MB+"joint/joint-composite.hxx", MB+"joint/joint-mimic.hpp"])
p("Inertial-parameter regressors reproduce inverse dynamics",
  "computeJointTorqueRegressor(q,v,a)*params = rnea(q,v,a) where params stacks the dynamic parameters of all bodies.",
  "every tree, q, v, a and inertial parameters", "Linear identity over arbitrary trees.",
  [AL+"regressor.hxx: computeJointTorqueRegressor, bodyRegressor"])
p("Quaternion/rotation conversions",
  "Quaternion to matrix gives a rotation for unit quaternions, opposite quaternions give the same rotation, conversion back gives plus or minus the quaternion, and composition commutes with the conversion.",
  "all unit quaternions / rotations", "Continuum; branchy conversion code.",
  [MA+"quaternion.hpp: assignQuaternion, defineSameRotation", MB+"joint/joint-spherical.hpp"])
p("Tridiagonal matrix algebra",
  "Product of a TridiagonalSymmetricMatrix with a matrix equals the dense product, and its inverse applied to a matrix solves the linear system when all pivots are non-zero.",
  "all sizes and coefficients", "Unbounded sizes.",
  [MA+"tridiagonal-matrix.hpp"])
p("Power balance and gravity as a gradient",
  "Along every trajectory the mechanical energy (computeKineticEnergy + computePotentialEnergy) changes at the rate tau.v where tau = rnea(q,v,a); computeGeneralizedGravity is the gradient of computePotentialEnergy; computeMechanicalEnergy is the sum of both energies.",
  "every tree, trajectory (q,v,a), gravity", "Differential identity over arbitrary trees.",
  [AL+"energy.hxx", AL+"rnea.hxx"])
p("Time variation of the Jacobians",
  "After computeJointJacobiansTimeVariation(q,v), dJ*v + J*a is the acceleration of the joint or frame returned by forwardKinematics(q,v,a) (spatial acceleration in WORLD and LOCAL, classical acceleration in LOCAL_WORLD_ALIGNED), and dJ is the time derivative of J along the motion.",
  "every tree, joint or frame, reference frame, q, v, a", "Continuum of inputs and unbounded trees.",
  [AL+"jacobian.hxx: computeJointJacobiansTimeVariation, getJointJacobianTimeVariation", AL+"frames.hxx: getFrameJacobianTimeVariation, getFrameClassicalAcceleration"])
p('Time variation of the centroidal momentum and of the centroidal map',
  'computeCentroidalMomentumTimeVariation(q,v,a) returns the time derivative of hg along the motion; dccrba(q,v) returns the time derivative of Ag, so that dAg*v + Ag*a is that derivative; computeCentroidalMapTimeVariation returns the same matrix whatever data held before.',
  'every tree, q, v, a and prior Data', 'Differential identities over arbitrary trees; history dependence.',
  [AL+"centroidal.hxx: computeCentroidalMomentumTimeVariation, dccrba, computeCentroidalMapTimeVariation"])
p('computeMinverse without configuration after ABA',
  'After a call of aba(model,data,q,v,tau) the overload computeMinverse(model,data) returns the upper triangle of the inverse of the joint-space inertia matrix at q, as its documentation says, for every convention of aba.',
  'every depth-first tree, configuration, velocity, torque, external force, convention and previous content of data', 'The result depends on what an earlier call left in data; tests only use one convention.',
  ["include/pinocchio/algorithm/aba.hxx: computeMinverse(model, data), optimized::ComputeMinverseBackwardStep", "include/pinocchio/algorithm/aba.hpp: aba"])
p('Relative joint placements do not depend on the convention',
  'After forwardKinematics, getRelativePlacement(model, data, ref, target, convention) returns oMref^-1 * oMtarget for both conventions, including when one joint is the universe or an ancestor of the other.',
  'every reachable model, configuration, pair of joints and previous data content', 'the LOCAL convention climbs both supports to the common ancestor; tests sample two joints of one robot',
  ['include/pinocchio/algorithm/kinematics.hxx:getRelativePlacement','include/pinocchio/algorithm/model.hxx:findCommonAncestor'])
p('Success of the ADMM contact solver',
  "When ADMMContactSolver::solve returns true with precision eps, the forces it holds are in the friction cones, the dual variables in the dual cones and both are orthogonal contact by contact; the primal iterate is within eps of those forces and the velocities (G+R)x+g with the De Saxce correction within eps of the dual variables; with precision 0 every contact obeys Coulomb's law. A solution of the problem is stationary.",
  'every problem, number of contacts, initial guess, history of rho updates, precision and iteration limit', 'The guarantee concerns the state at whatever iteration the loop stops, after any history of penalty updates.',
  ["include/pinocchio/algorithm/admm-solver.hxx: ADMMContactSolverTpl::solve", "include/pinocchio/algorithm/contact-solver-utils.hpp"])
p('Contact impulses of contact inverse dynamics',
  "computeContactImpulses returns impulses in the friction cones; an iteration is stationary exactly on the solutions of the regularised contact problem (Coulomb's law with velocity c_ref + constraint_correction + R*lambda); the call is defined on a fresh Data.",
  'every reference velocity, compliance, list of cones, guess and number of iterations', 'Fixed points over all problems; the correction argument is never exercised by tests.',
  ["include/pinocchio/algorithm/contact-inverse-dynamics.hpp: computeContactImpulses", "include/pinocchio/algorithm/constraints/coulomb-friction-cone.hpp: weightedProject, computeNormalCorrection"])
p("Cone quantities measure Coulomb's law",
  "Signorini's condition and Coulomb's law hold between a force and a velocity exactly when the cone's isInside accepts the force, the dual cone's isInside accepts the velocity plus computeNormalCorrection, and computeContactComplementarity is zero.",
  'every force, velocity and positive friction coefficient', 'An equivalence over all vectors.',
  ["include/pinocchio/algorithm/constraints/coulomb-friction-cone.hpp"])
p('Contact forces of contactInverseDynamics obey action and reaction',
  'The external forces that contactInverseDynamics gives to the inverse dynamics do the work of the contact forces on the relative motion of the contact points; for a contact between two bodies they are opposite.',
  'every list of contacts, placements and forces', 'Tests only use contacts with the environment.',
  ["include/pinocchio/algorithm/contact-inverse-dynamics.hpp: contactInverseDynamics"])
p('Kinematic derivatives are the derivatives',
  'After computeForwardKinematicsDerivatives, the matrices returned by getJointVelocityDerivatives, getJointAccelerationDerivatives, getFrameVelocityDerivatives, getFrameAccelerationDerivatives, getPointVelocityDerivatives and getPointClassicAccelerationDerivatives are the partial derivatives, with respect to configuration, velocity and acceleration, of the velocities and accelerations that forwardKinematics gives for the same joint, frame or point, in the requested reference frame.',
  'all models, all configurations, velocities and accelerations, all joints, frames and points, all directions of variation, all reference frames', 'unit tests compare with finite differences, on a few models and up to a tolerance',
  ['include/pinocchio/algorithm/kinematics-derivatives.hxx: computeForwardKinematicsDerivatives, getJointVelocityDerivatives, getJointAccelerationDerivatives, getPointVelocityDerivatives, getPointClassicAccelerationDerivatives','include/pinocchio/algorithm/frames-derivatives.hxx: getFrameVelocityDerivatives, getFrameAccelerationDerivatives'])
p('Derivatives of the inverse dynamics are the derivatives of the inverse dynamics',
  'computeRNEADerivatives returns the partial derivatives of the torque returned by rnea (with and without external forces) with respect to configuration, velocity and acceleration: applied to any direction they give the derivative of rnea along that direction, rnea_partial_da is the joint-space inertia matrix, and data.tau the torque itself. computeGeneralizedGravityDerivatives and computeStaticTorqueDerivatives return the derivative of the gravity and static torques with respect to the configuration.',
  'every model, configuration, velocity, acceleration, external force and direction; every previous content of Data', 'unit tests compare with finite differences, up to an error of the step, on one sampled model',
  ['include/pinocchio/algorithm/rnea-derivatives.hxx: computeRNEADerivatives, computeGeneralizedGravityDerivatives, computeStaticTorqueDerivatives', 'include/pinocchio/algorithm/rnea-derivatives.hpp'])
p('Derivatives of the forward dynamics',
  'computeABADerivatives returns the partial derivatives of the forward-dynamics acceleration with respect to the configuration (in the tangent space), the velocity and the torque, with or without external forces, into the arguments or into data, and data.ddq is the acceleration aba returns. The overloads without q, v and tau return the same after aba on the same data. The derivative with respect to the torque is the whole inverse of the joint-space inertia matrix.',
  'every model whose inertia matrix is invertible, every state, torque, external force, direction of variation, and every earlier use of data', 'Tests compare with finite differences on one humanoid, on freshly constructed data, with a tolerance; joints with a configuration dependent subspace, several branches with reused data, and the order of calls are not covered by any sample.',
  ["include/pinocchio/algorithm/aba-derivatives.hpp: computeABADerivatives","include/pinocchio/algorithm/aba-derivatives.hxx: ComputeABADerivativesForwardStep1, ComputeABADerivativesBackwardStep1, ComputeABADerivativesForwardStep2, ComputeABADerivativesBackwardStep2, optimized::computeABADerivatives"])
p('Derivatives of the centroidal dynamics',
  'computeCentroidalDynamicsDerivatives returns the partial derivatives, with respect to configuration, velocity and acceleration, of the centroidal momentum and of its rate of change, both taken about the moving centre of mass; data.hg, data.dhg, data.com[0] and data.mass[0] are the momentum, its rate of change, the centre of mass and the total mass. getCentroidalDynamicsDerivatives returns the same after computeRNEADerivatives on the same data, however many times it is called. getCenterOfMassVelocityDerivatives returns the derivative of the velocity of the centre of mass with respect to the configuration after centerOfMass.',
  'every model with non-zero mass, state, acceleration, direction of variation, and every previous content of Data', 'Tests compare with finite differences on one humanoid, up to the error of the step, in one order of calls on fresh data',
  ["include/pinocchio/algorithm/centroidal-derivatives.hxx: computeCentroidalDynamicsDerivatives, getCentroidalDynamicsDerivatives", "include/pinocchio/algorithm/center-of-mass-derivatives.hxx: getCenterOfMassVelocityDerivatives"])
p('computeAllTerms equals the separate calls',
  'After computeAllTerms(model, data, q, v), every quantity it documents is the one the separate function computes: placements, velocities and bias accelerations (forwardKinematics), joint Jacobians and their time variation, mass matrix (crba), nonLinearEffects, masses, centres of mass and their velocities of all subtrees (centerOfMass), Jacobian of the centre of mass (jacobianCenterOfMass, getJacobianSubtreeCenterOfMass), centroidal map, momentum and inertia (ccrba, dccrba), generalized gravity, kinetic, potential and mechanical energy, and the rate of change of the centroidal momentum at zero acceleration in data.dhg; whatever Data contained before.',
  'every model without mimic joints, state, and every previous content of Data', 'Tests compare a few fields on one humanoid at one random state, starting from fresh data',
  ["include/pinocchio/algorithm/compute-all-terms.hxx: computeAllTerms", "include/pinocchio/algorithm/compute-all-terms.hpp: computeAllTerms"])
p('Derivatives of the exponential and logarithm maps, of integrate and of difference',
  'exp3 and exp6 are the exponential maps of rotations and poses up to a few machine epsilons, Jexp3, Jexp6, Jexp3CoeffWise are their derivatives, log3 and exp3 are inverse of one another, Jlog3 and Jlog6 are the derivatives of log3 and log6, Hlog3 the second derivative; dIntegrate with ARG0 and ARG1 gives the derivatives of integrate with respect to the configuration and the velocity: if q moves with velocity dq and v with dv, integrate(q, v) moves with J0 dq + J1 dv; dDifference likewise for difference; dIntegrate sets, adds to or subtracts from the diagonal block of each joint only; dIntegrateTransport multiplies by these matrices, in place or not.',
  'every rotation vector, twist, rotation, pose; every model with any joints, every pair of differentiable curves of configurations and velocities; every previous content of the output matrix', 'Tests compare with finite differences at random points with a tolerance of 1e-4 to 1e-8; branches on angles, full turns and small angles are not sampled',
  ["include/pinocchio/spatial/explog.hpp: exp3, exp6, Jexp3, Jexp6, Jlog3, Hlog3, Jlog6","include/pinocchio/spatial/log.hxx: log3_impl, Jlog3_impl, log6_impl, Jlog6_impl","include/pinocchio/spatial/explog-quaternion.hpp: Jexp3CoeffWise","include/pinocchio/algorithm/joint-configuration.hxx: dIntegrate, dDifference, dIntegrateTransport","include/pinocchio/multibody/liegroup: dIntegrate_dq_impl, dIntegrate_dv_impl, dDifference_impl"])
p('Dynamics and impacts under a constraint',
  "forwardDynamics(q, v, tau, J, gamma, inv_damping) leaves an acceleration a and multipliers lambda that satisfy rnea(q, v, a) = tau + J^T lambda and J a + gamma + inv_damping lambda = 0, the only ones that do; without damping a is the acceleration closest to the free one among those that satisfy the constraint (Gauss's principle). impulseDynamics(q, v, J, e, inv_damping) leaves a velocity v+ and impulses L with M(q)(v+ - v) = J^T L and J v+ = -e J v - inv_damping L; for 0 <= e <= 1 the kinetic energy does not increase, and it is kept for e = 1 without damping. computeKKTContactDynamicMatrixInverse, and getKKTContactDynamicMatrixInverse after forwardDynamics, return the inverse of [[M, J^T], [J, -inv_damping]].",
  'every model without mimic joints, with massive bodies; every q, v, tau; every constraint matrix J of any number of rows, independent or damped; every drift; every restitution coefficient; every content left in Data by earlier calls', 'Tests take one model, one random state and two contacts; that no energy is created, uniqueness and minimality quantify over all velocities and accelerations',
  ["include/pinocchio/algorithm/contact-dynamics.hxx: forwardDynamics, impulseDynamics, computeKKTContactDynamicMatrixInverse, getKKTContactDynamicMatrixInverse", "include/pinocchio/algorithm/cholesky.hxx: decompose, solve, Uiv"])
p('Jacobian of a rigid constraint',
  'For a RigidConstraintModel between two frames, of any two joints of any tree, the matrix that RigidConstraintModel::jacobian, getConstraintJacobian and getConstraintsJacobian write after computeJointJacobians(q) maps every joint velocity to the velocity of the first frame relative to the second: the difference of the velocities of the two points for CONTACT_3D, the difference of the spatial velocities of the two bodies at the first frame for CONTACT_6D, in the axes of the reference frame; it is the derivative of the relative position, respectively of the relative placement calc stores. Columns that cannot move the constraint are not written. jacobian_matrix_product(A) returns that Jacobian times A.',
  'all trees without mimic joints, joints, placements, constraint types and reference frames, configurations and velocities, lists of constraints', 'Which columns are filled, with which sign and lever arm, depends on where the paths of the two joints to the root meet; tests use a few pairs of joints.',
  ["include/pinocchio/algorithm/contact-info.hpp: RigidConstraintModel (constructors, init, calc, jacobian, jacobian_matrix_product, getA1, getA2)", "include/pinocchio/algorithm/contact-jacobian.hxx: getConstraintJacobian, getConstraintsJacobian"])
p('The contact Cholesky decomposition factorises the KKT matrix of the constraints',
  'After ContactCholeskyDecomposition::allocate and compute(model, data, contact_models, contact_datas, mus), matrix() is the KKT matrix [[-diag(mus), J], [J^T, M]], with J the stacked constraint Jacobians and M the mass matrix in data.M; solve returns the unique solution of its linear system and inverse() its inverse; getInverseOperationalSpaceInertiaMatrix is J M^-1 J^T + diag(mus), getOperationalSpaceInertiaMatrix its inverse, getInverseMassMatrix is M^-1, getJMinv is J M^-1, the Delassus expression applies and solves J M^-1 J^T + diag(mus), and the extracted decomposition of the mass matrix is that of cholesky::decompose. updateDamping(mus) leaves what compute with mus would. No result depends on earlier calls. For a positive definite M, and positive damping or independent constraints with non-negative damping, no pivot vanishes. compute throws exactly if the number of constraints changed.',
  'every tree in depth-first order, every list of 3D and 6D constraints between its joints or with the universe, every configuration, damping, right-hand side and history of calls', 'the sparse loops depend on the shape of the tree, on the span of every constraint and on leftovers of earlier calls; tests factorise a few models',
  ['include/pinocchio/algorithm/contact-cholesky.hpp', 'include/pinocchio/algorithm/contact-cholesky.hxx', 'ContactCholeskyDecompositionTpl::allocate', 'ContactCholeskyDecompositionTpl::compute', 'updateDamping', 'solveInPlace', 'inverse', 'getOperationalSpaceInertiaMatrix', 'DelassusCholeskyExpressionTpl'])
p('Dynamics and impacts with rigid constraint models solve their equations',
  'After initConstraintDynamics, constraintDynamics(model, data, q, v, tau, contact_models, contact_datas, settings) returns an acceleration ddq and forces lambda_c with M ddq + nle = tau + J^T lambda_c; the accelerations of the constrained frames differ by the Baumgarte feedback of their position and velocity errors plus the desired acceleration, up to mu times the relative residual reported, exactly and uniquely if mu = 0 and the constraints are independent; the proximal iterations never move away from the exact multipliers and stop by a criterion that means that the constraints are met; contact_force are the multipliers of each constraint; M, Ag and com are those of crba. impulseDynamics with contact models returns a velocity with M (v+ - v-) = J^T impulse and, at each constraint, a relative velocity that is minus r_coeff times the one before, up to mu times the impulse. They throw exactly on a negative mu or a coefficient outside of [0, 1].',
  'every tree in depth-first order with massive bodies, every list of 3D and 6D constraints, gains, desired accelerations, configuration, velocity, torque, settings and history of calls', 'the equations involve the sparse factorisation, the drift in two reference frames and a loop whose length depends on the data; tests check a few robots and constraints with the universe',
  ["include/pinocchio/algorithm/constrained-dynamics.hxx", "include/pinocchio/algorithm/impulse-dynamics.hxx", "include/pinocchio/algorithm/proximal.hpp", "constraintDynamics", "initConstraintDynamics", "impulseDynamics", "ContactAndImpulseDynamicsForwardStep", "ContactAndImpulseDynamicsBackwardStep"])
p('Saving and loading round trip',
  'Saving a joint, a model or a geometry model with any of the text, string, XML and binary archives, then loading the archive into an object of the same type, whatever that object holds, gives back the object saved, member by member, and leaves nothing of the archive unread.',
  'every joint, model and geometry model that the API can build, every archive format, every object loaded into', 'joints nest composite and mimic joints to any depth and the loaded joint goes through setIndexes of whatever joint was there before; the tests round-trip a few models into fresh objects and compare them with operator==, which ignores several members',
  ['include/pinocchio/serialization/model.hpp: serialize', 'include/pinocchio/serialization/joints-model.hpp: save, load, serialize', 'include/pinocchio/serialization/geometry.hpp: serialize', 'include/pinocchio/serialization/archive.hpp: loadFromText, loadFromString, loadFromXML, loadFromBinary'])
p('Model comparison and change of scalar type',
  'Two models that operator== finds equal have the same members; a model without NaN is equal to itself and to what is loaded back from its archive; cast keeps the structure of a model, converts every number, and is the identity when the scalar type does not change.',
  'every pair of models, every conversion of numbers', 'operator== and cast enumerate members by hand; a missing member is invisible to tests which compare with operator== itself',
  ['include/pinocchio/multibody/model.hxx: ModelTpl::operator==, ModelTpl::cast', 'include/pinocchio/multibody/joint/joint-model-base.hpp: isEqual', 'include/pinocchio/multibody/joint/joint-mimic.hpp: cast', 'include/pinocchio/multibody/joint/joint-composite.hpp: isEqual, cast'])
p('A model read from a URDF description is the one described',
  'buildModel on a URDF description adds one joint per movable URDF joint (parents first, plus the root joint), attached to the link and at the place described, with the type, limits, friction and damping described; every link of the description is a body frame; in every configuration the pose of a link is that of its parent displaced by the joint origin and the joint motion; every joint carries exactly the inertias of the links fixed to it; the rest of the model is kept; a description is accepted exactly when the parser can read all its joints.',
  'every description (tree of links of any size), every model given to the parser with other names, with or without a root joint, with or without mimic joints', 'the trees are unbounded; the tests load a few robots and compare a few numbers',
  ["src/parsers/urdf/model.cpp: parseTree, parseRootTree", "include/pinocchio/parsers/urdf/model.hxx: UrdfVisitor, UrdfVisitorWithRootJoint, buildModel", "src/parsers/urdf/utils.cpp: convertFromUrdf"])
p('Roll, pitch and yaw describe every orientation, and their Jacobians are its angular velocity',
  'rpyToMatrix(r,p,y) is the rotation Rz(y) Ry(p) Rx(r). For every rotation matrix, gimbal lock included, matrixToRpy returns angles in the documented ranges whose matrix is that rotation; away from gimbal lock and from a roll of half a turn it returns the very angles the matrix was made of. computeRpyJacobian maps the rates of the angles to the angular velocity in the frame asked for, computeRpyJacobianInverse is its inverse away from gimbal lock, and computeRpyJacobianTimeDerivative is its derivative along every motion.',
  'all angles, all rotation matrices, all differentiable motions of the angles, all reference frames', 'tests sample angles; the branches of matrixToRpy meet on sets of measure zero (gimbal lock, half turns) which random samples never reach',
  ["include/pinocchio/math/rpy.hxx: rpyToMatrix, matrixToRpy, computeRpyJacobian, computeRpyJacobianInverse, computeRpyJacobianTimeDerivative"])
p('A Data built for a model fits this model',
  'Building a Data for a model reads and writes nothing out of range. Its tables describe the model: the last joint and the number of degrees of freedom of every subtree, and for every row of the velocity vector the row before it on the way to the root and the increasing list of all the rows on this way. model.check(Data(model)) always answers, and answers true exactly when the joints are numbered depth first, which is what the algorithms that work by blocks of rows need.',
  'all models reachable by construction calls, in every numbering of the joints', 'tests build a Data for a handful of robots, all numbered depth first and almost all without mimic joints; the tables of other topologies are never looked at',
  ["include/pinocchio/multibody/data.hxx: DataTpl, computeLastChild, computeParents_fromRow, computeSupports_fromRow", "include/pinocchio/algorithm/check-data.hxx: checkData"])
p('Kinematic Hessians are the derivatives of the Jacobians',
  'After computeJointJacobians and computeJointKinematicHessians, the tensor getJointKinematicHessian returns for a joint, contracted with a joint velocity w, is the derivative of the Jacobian getJointJacobian returns in the same reference frame when the configuration moves with the velocity w, whatever data.kinematic_hessians held before.',
  'all models (any tree of joints with constant motion subspaces, any number of degrees of freedom per joint), configurations, directions, joints, columns and reference frames', 'Tests compare with finite differences on one humanoid whose only joint with several degrees of freedom is the root; the tensor entries written depend on the order of joints and the sizes of their motion subspaces.',
  ['include/pinocchio/algorithm/kinematics-derivatives.hxx: computeJointKinematicHessians, getJointKinematicHessian','include/pinocchio/algorithm/jacobian.hxx: getJointJacobian'])
p('A Delassus operator depends on its matrix and its last damping only',
  'Whatever calls of updateDamping and matrix() a dense or sparse Delassus operator went through, its products, its matrix(), its solutions and its inverse are those of the matrix it was built from plus the diagonal of the last damping it was given, or of no damping.',
  'all sizes, matrices, dampings, right-hand sides and histories of calls; all decompositions that solve the systems they succeed on; for the dense operator also any rounding of the additions', 'tests change the damping once or twice; contact solvers change it at every iteration for the whole life of the operator, and the sparse operator updates its matrix incrementally',
  ["include/pinocchio/algorithm/delassus-operator-dense.hpp: DelassusOperatorDenseTpl","include/pinocchio/algorithm/delassus-operator-sparse.hpp: DelassusOperatorSparseTpl, SimplicialCholeskyWrapper"])
p('Power iterations return bounds of the extreme eigenvalues',
  'On a symmetric matrix, the largest eigenvalue returned by power iterations never exceeds the largest magnitude of an eigenvalue, is at least the stretch of the start, and after k iterations is within the k-th root of the cosine between the start and the eigenvector; it is NaN only if the start is zero or is sent to zero; the lowest eigenvalue returned lies between the lowest one and the Rayleigh quotient of the start.',
  'all symmetric matrices and operators of every size, starts, limits of iterations and tolerances', 'tests compare with the eigenvalues of a few random matrices, from which neither a bound nor the matrices on which the iterations fail can be seen',
  ["include/pinocchio/math/eigenvalues.hpp: PowerIterationAlgoTpl, computeLargestEigenvector, computeLowestEigenvector"])
p('Distance queries return the closest pair and radii enclose the bodies',
  'computeDistances returns the first of the closest enabled pairs, or the number of pairs when none is enabled, and stores for every enabled pair the distance of its two objects placed by the forward kinematics of the configuration given. computeBodyRadius gives every joint a radius that encloses the boxes of all the objects attached to it, and no larger than their farthest corner.',
  'all models, geometry models, activation flags, configurations, answers of the collision library, boxes and placements, and all previous contents of the geometry data', 'tests query one humanoid in a few configurations; ties, disabled pairs and reuse of the geometry data need an argument over all of them',
  ["include/pinocchio/collision/distance.hxx: computeDistances, computeDistance","include/pinocchio/collision/collision.hxx: computeBodyRadius","include/pinocchio/algorithm/geometry.hxx: updateGeometryPlacements"])
p('The Lanczos decomposition is an orthonormal tridiagonalisation',
  'For a symmetric matrix, LanczosDecomposition::compute returns orthonormal columns starting with the uniform vector in which the matrix is the tridiagonal matrix returned; it stops early only when these columns span a space the matrix leaves invariant up to the tolerance, rank() is the number of these columns, and the residual is zero when all the columns asked for are there. orthonormalisation returns a vector orthogonal to an orthonormal basis that differs from the one given by an element of its span.',
  'all symmetric matrices, sizes, tolerances, vectors, orthonormal bases, and all previous contents of the decomposition object', 'tests decompose random matrices, whose Krylov spaces are full; early stops and reuse of an object are never reached',
  ["include/pinocchio/math/lanczos-decomposition.hpp: LanczosDecompositionTpl::compute, rank, computeDecompositionResidual", "include/pinocchio/math/gram-schmidt-orthonormalisation.hpp: orthonormalisation"])
p('The inertia and the force supported by a frame are those of the part of the robot after it',
  'computeSupportedInertiaByFrame returns, in the frame, the inertia of the frame, of the frames placed after it on the same joint and, on request, of all the joints its joint supports; after forwardKinematics and rnea, computeSupportedForceByFrame returns the force that gives their motion, gravity included, to that part of the robot, less the external forces on the supported joints.',
  'all models, frames, configurations, velocities, accelerations, external forces, previous contents of the data', 'tests compare the two functions with one robot and a few frames, never a frame of the universe and never after rnea alone',
  ["include/pinocchio/algorithm/frames.hxx: computeSupportedInertiaByFrame, computeSupportedForceByFrame", "include/pinocchio/algorithm/frames.hpp: documentation of both"])
p('Broad-phase managers miss no collision',
  'After the geometry placements and a BroadPhaseManager or TreeBroadPhaseManager have been updated, computeCollisions with the manager returns true exactly when the exhaustive computeCollisions does; collisionPairIndex is then an enabled pair in collision and collisionResults tell the collisions; after any history of updates the internal manager contains exactly the enabled selected objects.',
  'all geometry models reached by any history of calls, filters, histories of updates with geometries, flags, pairs, margins and placements changed in between, and all orders in which the internal manager presents the pairs', 'tests compare both queries on one robot at random configurations, where no geometry is flat, no pair is on one joint and nothing changes between updates',
  ["include/pinocchio/collision/broadphase-manager.hxx: update, check, collide", "include/pinocchio/collision/broadphase-manager.hpp: BroadPhaseManagerTpl", "include/pinocchio/collision/tree-broadphase-manager.hxx: TreeBroadPhaseManagerTpl", "include/pinocchio/collision/broadphase-callbacks.hpp: CollisionCallBackDefault", "include/pinocchio/collision/broadphase.hpp: computeCollisions"])
p('Random configurations are valid, within the limits, and cover them',
  'randomConfiguration throws exactly when a coordinate to which limits apply (vector spaces and translations) has an infinite limit; otherwise it returns a finite configuration within the limits with unit complex numbers and quaternions, writes nothing else and calls rand() a number of times fixed by the model; every such configuration is the result for some numbers drawn.',
  'all models reached by any sequence of calls with any joints (composite and mimic included), all limits, all numbers drawn by rand()', 'a test draws a few samples: it sees neither the ends of the range of rand() nor the configurations that are never drawn',
  ["include/pinocchio/algorithm/joint-configuration.hxx: randomConfiguration", "include/pinocchio/multibody/liegroup/vector-space.hpp: randomConfiguration_impl", "include/pinocchio/multibody/liegroup/special-orthogonal.hpp: random_impl", "include/pinocchio/math/quaternion.hpp: uniformRandom", "include/pinocchio/multibody/model.hxx: addJoint"])
p('Reading an SRDF document does what the document says',
  'removeCollisionPairs removes exactly the pairs between the two bodies named by a tag disable_collisions, in either order, keeps the order of the others, and leaves the pair queries consistent; loadReferenceConfigurations stores, for each new group name, the neutral configuration where each joint has the values given for it, and keeps the configurations already stored; loadRotorParameters adds mass * gear_ratio^2 to the armature of the named joints, stores mass and gear ratio, and changes nothing else. Well-formed documents never fail; ill-formed tags are rejected or ignored without undefined behaviour.',
  'all models and geometry models reached by any sequence of calls, all documents (any number of tags, in any order, with repeated and unknown names)', 'a test reads one file of one robot: it does not see repeated groups, repeated joints, tags for the universe, pairs in the other order, or pairs that move while the loop erases',
  ['include/pinocchio/parsers/srdf.hxx: removeCollisionPairs', 'include/pinocchio/parsers/srdf.hxx: loadReferenceConfigurationsFromXML', 'include/pinocchio/parsers/srdf.hxx: loadRotorParameters', 'include/pinocchio/multibody/geometry.hxx: removeCollisionPair'])
p('The Delassus matrix of a set of contacts is J (M + mu JᵀJ)⁻¹ Jᵀ',
  'computeDelassusMatrix(model, data, q, contacts, contact_datas, G, mu) fills the blocks (i, k), i <= k, of G with the exact responses of the contact points: column c of contact k is the contact velocity J qdd of the joint velocities qdd that solve (M + mu J^T J) qdd = J^T e_c, whatever the tree, the joints, the placements, the types (3D or 6D) and the number and order of the contacts, several contacts on one joint included. A negative mu or a matrix of the wrong size is refused. computeDampedDelassusMatrixInverse(..., mu, scaled) returns the inverse of J M^-1 J^T + mu I on the same blocks (times mu when scaled).',
  'all trees without mimic joints, positive definite joint inertias, configurations, numbers of contacts, contact types, placements and damping factors', 'the algorithm propagates motions and forces along pairs of supports; a mistake in the common ancestor, the order of the contacts or the damping shows only on particular trees and contact sets',
  ["include/pinocchio/algorithm/delassus.hxx: computeDelassusMatrix, computeDampedDelassusMatrixInverse", "include/pinocchio/algorithm/contact-info.hpp: RigidConstraintModelTpl, RigidConstraintDataTpl", "include/pinocchio/algorithm/model.hxx: findCommonAncestor"])
p('Turning a joint into a mimic joint',
  'transformJointIntoMimic(input, i, j, scaling, offset, output) and buildMimicModel give the model in which joint j has no coordinate of its own and follows joint i < j: the tree, inertias, frames, all other joints and their limits, armature, friction and damping are those of the input, the other mimic joints still follow the same joints. The bodies of the result move as those of the input when the coordinates of j are scaling * q_i + offset (velocities and accelerations: times scaling), and its inverse dynamics gives joint i its own torque plus scaling times that of j. Indexes that are not joints, a joint i that does not precede j, the universe and joint types that cannot be a mimic joint are refused.',
  'all models built by the construction calls, pairs and lists of pairs of joints, scalings, offsets, configurations, velocities and accelerations', 'the indexes and parameters of all joints behind j are shifted; mistakes show only for particular positions, sizes and existing mimic joints',
  ['include/pinocchio/algorithm/model.hxx: transformJointIntoMimic, buildMimicModel', 'include/pinocchio/multibody/joint/joint-mimic.hpp: JointModelMimicTpl, setMimicIndexes'])
p('crba on models with mimic joints',
  'On a model with mimic joints, crba(model, data, q) leaves in data.M the mass matrix of the model in which each mimic joint moves with the joint it follows, M(v, w) = sum of the kinetic energy products of all bodies plus armature; in the world convention also its centroidal map, mass and centre of mass. This holds for any tree, joints, scalings and configuration when: the followed joint does not own the first velocity coordinate, no mimic joint is below another one, a mimic joint has at most one child, joints between the followed joint and the mimic joint have one degree of freedom, the last joint of the subtree of a joint is not a mimic joint, and data is fresh. Without any one of these the result is wrong or memory is read out of range.',
  'all models built by construction calls with mimic joints, all configurations', 'trees, places of the mimic joints, scalings and configurations are unbounded; the repository tests a few mimic joints of one sample robot',
  ['include/pinocchio/algorithm/crba.hxx: crbaWorldConvention, crbaLocalConvention, CrbaWorldConventionMimicStep, CrbaLocalConventionMimicStep', 'include/pinocchio/multibody/data.hxx: computeLastChild'])
p('The constrained dynamics solver pv returns the acceleration and multipliers of the constrained equations of motion',
  'After initPvSolver(model, data, contact_models) and any number of earlier calls to pv with the same contacts, pv(model, data, q, v, tau, contact_models, contact_datas, settings) leaves in data.ddq an acceleration whose inverse dynamics are tau minus the generalised forces of the multipliers in data.lambdaA, and gives each contact (the point of a CONTACT_3D, the frame of a CONTACT_6D) the acceleration that the corrector asks for, up to mu times the reported residual; with mu = 0 and independent contacts the contact accelerations are exact and the solution is the only one. data.lambdaA[0] holds each entry of the multiplier of each contact once. The corrector asks for -Kp e - Kd de/dt, e and de/dt the placement error and the velocity of the contact.',
  'every tree of joints, every joint type, every valid configuration, velocity and torque, every list of contacts in LOCAL with the world (several on one joint, on nested joints, on different branches), every gain, every mu and number of iterations, every history of calls', 'the solver pushes blocks of constraint columns up the tree into slots whose layout depends on the whole list of contacts, and reuses the buffers between calls; unit tests run it on one humanoid with a few contacts, after constraintDynamics has filled the contact data',
  ["include/pinocchio/algorithm/pv.hpp", "include/pinocchio/algorithm/pv.hxx: initPvSolver, PvForwardStep1, PvRegBackwardStep, PvRegForwardStep2, pv"])
p('The constrained dynamics solver constrainedABA returns the acceleration and multipliers of the constrained equations of motion',
  'After initPvSolver(model, data, contact_models) and any number of earlier calls to constrainedABA with the same contacts, constrainedABA(model, data, q, v, tau, contact_models, contact_datas, settings) with mu > 0 leaves in data.ddq an acceleration whose inverse dynamics are tau minus the generalised forces of the multipliers in data.lambdaA[0] (in the order of the contacts), up to the reported residual over mu, and gives each contact the acceleration that the corrector asks for up to the reported residual. When the residual is zero and the contacts are independent, these are the only solution, and that of pv without regularisation. When the constraints can be met, the loop reaches every positive tolerance within a bounded number of iterations. The result does not depend on earlier calls on the same data. The corrector asks for -Kp e - Kd de/dt.',
  'every tree of joints, every joint type, every valid configuration, velocity and torque, every list of contacts in LOCAL with the world (several on one joint, on nested joints, on different branches), every gain, every mu > 0 and number of iterations, every history of calls', 'the augmented Lagrangian loop runs until an accuracy that only holds in the limit and shares with pv the buffers of Data, which calls do not reset; unit tests compare one call on one humanoid with a tolerance',
  ["include/pinocchio/algorithm/pv.hpp", "include/pinocchio/algorithm/pv.hxx: initPvSolver, cAbaBackwardStep, PvBackwardStepReduced, cAbaForwardStep2, constrainedABA"])
p('contactABA returns the acceleration and contact forces of the constrained equations of motion',
  'contactABA(model, data, q, v, tau, contact_models, contact_datas, settings) leaves in data.ddq an acceleration whose inverse dynamics are tau minus the generalised forces of contact_force of the contact data, up to mu times the error of the contacts; when the reported residual is below the tolerance no entry of the acceleration error of a contact is larger. When the constraints can be met, the loop reaches every positive tolerance within a number of iterations that is bounded by the distance of the first forces to the solution. The result depends on earlier calls only through contact_force. settings.iter is the number of iterations. Without contacts the result is that of aba.',
  'every tree of joints, every joint type, every valid configuration, velocity and torque, every list of contacts with the world, every desired contact acceleration, every mu >= 0, tolerance and number of iterations, every earlier state of data and of the contact forces', 'the loop runs until an accuracy that only holds in the limit, on forces that are kept between calls; the unit tests compare one call on one humanoid with a tolerance, mostly at small velocities, and look at the forces of no contact',
  ["include/pinocchio/algorithm/constrained-dynamics.hpp: contactABA", "include/pinocchio/algorithm/constrained-dynamics.hxx: contactABA, ContactABAForwardStep1, ContactABABackwardStep1, ContactABABackwardStepAugmented, ContactABAForwardStep2"])
p('Delassus matrix by the PV recursion',
  'After initPvDelassus has prepared a Data for a set of contacts, computePvDelassusMatrix returns, on and above the diagonal blocks, the matrix J (M + mu J^T J)^-1 J^T of the contacts, the same as computeDelassusMatrix; the damped inverse that uses it by default is the inverse of J M^-1 J^T + mu I, or mu times it when scaled. This holds for any number of calls and whatever the Data, the contact data and the output held before. A negative damping and a matrix of a wrong size are refused.',
  'every tree, joint types, configuration, number, type and position of the contacts (several on a joint, on a chain or on branches), every damping, every previous content of the data', 'the recursion groups the contacts by accumulation joints and finds common ancestors through tables: whether every grouping gives the right block depends on the tree and on the contacts, and the tests have two robots',
  ["include/pinocchio/algorithm/delassus.hpp", "include/pinocchio/algorithm/delassus.hxx: initPvDelassus, findGreatestCommonAncestor, computePvDelassusMatrix, computeDampedDelassusMatrixInverse"])
p('Actions on sets of motions and forces',
  'Applying a placement, its inverse, a motion or an inertia to a 6xN matrix of motions or forces multiplies every column by the 6x6 matrix of that object and assigns it to, adds it to or subtracts it from the same column of the output, as asked; no other column changes. This holds for two matrices and for a call in place; acting by a placement and then by its inverse in place gives the matrix back.',
  'every number of columns, matrix contents, placement, motion, force and inertia over a commutative ring, each of the three assignment operators, and every position of the input and output blocks in one storage (disjoint, in place, overlapping)', 'tests use two fresh matrices of fixed size and one operator; whether a column is read after it is written depends on how input and output are placed',
  ["include/pinocchio/spatial/act-on-set.hxx: forceSet::se3Action, forceSet::se3ActionInverse, forceSet::motionAction, motionSet::se3Action, motionSet::se3ActionInverse, motionSet::motionAction, motionSet::inertiaAction, motionSet::act", "include/pinocchio/spatial/force-dense.hpp: motionAction", "include/pinocchio/spatial/motion-dense.hpp: motionAction", "include/pinocchio/spatial/inertia.hpp: __mult__", "include/pinocchio/spatial/symmetric3.hpp: rhsMult"])
p('Reference frames of motions and forces, and the classic acceleration',
  'Changing the reference frame in which a motion is expressed (WORLD, LOCAL or LOCAL_WORLD_ALIGNED) changes the velocity of no point of the body; changing that of a force changes neither its resultant nor its moment about any point. Hence a change through a third frame is the direct change, there and back is the identity, and power is the same in all frames. The classic acceleration of a frame, or of a frame placed on it, is the second time derivative of the position of its origin, in its own axes.',
  'every placement with a rotation, motion, force, pair of reference frames and point over a commutative ring; for the acceleration every differentiable motion of a body over the reals and every placement on it', 'the meaning of a reference frame is a statement on all points of the body, and the classic acceleration a statement on derivatives of trajectories',
  ["include/pinocchio/algorithm/utils/motion.hpp: changeReferenceFrame", "include/pinocchio/algorithm/utils/force.hpp: changeReferenceFrame", "include/pinocchio/spatial/classic-acceleration.hpp: classicAcceleration"])
p('Reachable workspace: enumeration of the faces',
  'The reachable workspace visits every face of the box of admissible velocities: every choice of facet_dims degrees of freedom to sample, and for each of them every choice of the lower or upper bound of the others and every choice of a sample for the sampled ones. No choice is visited twice, and none is missed.',
  'every number of degrees of freedom, every facet_dims not above it, every number of samples, every set, choice of bounds and choice of samples', 'the loops carry indices from one turn to the next without resetting them and the number of turns is computed apart from the enumeration; tests compare a hull on one robot, and a missed or repeated face changes nothing visible there',
  ['include/pinocchio/extra/reachable-workspace.hxx: internal::computeVertex, generateCombination, productCombination, computeJointVel'])
here=os.path.dirname(os.path.abspath(__file__))
with open(os.path.join(here,"..","properties.jsonl"),"w") as f:
    for x in P: f.write(json.dumps(x)+"\n")
print(len(P))
