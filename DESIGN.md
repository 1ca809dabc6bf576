# A machine-checked model of stack-of-tasks/pinocchio (Lean 4)

## Layout

* `properties.jsonl` – the semantic properties (generated by `tools/props.py`).
* `MANIFEST.json` – property → theorem map (generated by `tools/manifest.py` from the theorem names and `tools/manifest_notes.json`).
* `seeded/LOG.jsonl` – mutation log.
* `lean/Verif/…` – the model, helper lemmas and theorems.
  * `Spatial/*`   spatial algebra, inertial parameters (`include/pinocchio/spatial`)
  * `Math/*`      quaternions, tridiagonal matrices (`include/pinocchio/math`)
  * `Joint/*`     the joint types (`multibody/joint`)
  * `Tree/*`      loops, arrays and recursions over trees
  * `Model/*`     `ModelTpl` construction (`Construction`, `Reach*`), from a model to the tables read by algorithms (`ToSys`),
    `findCommonAncestor` (`Ancestor*`), `buildReducedModel` (`Reduce*`), `appendModel` (`Append*`), examples
  * `Algo/*`      the multibody algorithms: kinematics, `rnea`, `crba`, `aba` (`Aba*`), Jacobians, Coriolis, centre of mass,
    centroidal, Cholesky, `computeMinverse`, regressors, energy; `History` for sequences of calls on one `Data`
  * `LieGroup/*`  configuration-space operations
  * `Geom/*`      `GeometryModel` / `GeometryData`
  * `Par/*`       pools and parallel loops
  * `Contact/*`   friction cones, PGS, ADMM, contact inverse dynamics
  * `Spec/*`      small specifications, independent of the model's loops, that the theorems refer to
  * `Props/*`     the property theorems, one file per area, with non-vacuity examples and counterexamples

## Trusted base

* Lean's kernel (4.33.0) and Mathlib's definitions.
* Each theorem depends on at most `propext`, `Classical.choice`, `Quot.sound` (to check one: `#print axioms Pin.C38_inertia`).
  Nothing is added to them, and no proof uses compiled evaluation; `decide +kernel` on concrete rationals appears only in
  examples and counterexamples, and is checked by the kernel.
* The faithfulness of the hand-written model: every definition cites file:lines and says what it simplifies.

### Global modelling decisions

1. **Scalars.** pinocchio is templated on `Scalar`. The model is written over an arbitrary commutative ring
   / field / ordered field `K` (whatever the code's operations need), or over `ℝ` when `sqrt`, `sin`, `cos`,
   `acos`, `exp` matter. Rounding is *not* modelled: theorems speak of exact scalars. `eps` thresholds are
   kept as explicit branches (with an arbitrary `eps`) where they select between code paths.
2. **Arrays.** `std::vector`/Eigen vectors that the algorithms read and write become functions `ℕ → X`
   updated pointwise (`Function.update`), so an algorithm started from an *arbitrary* previous content
   models "any call history". In the construction state machines they are `List`s, so sizes are observable.
3. **Loops** become left folds over the same index ranges, in the same order.
4. **Exceptions** are `Except`/`Option` results; undefined behaviour (out of bounds access, iterator
   decrement at `begin`) is a distinct outcome.
5. **Joint visitors** (boost::variant dispatch) become a `match` on an inductive type of joint models.
6. **Threads.** An OpenMP `parallel for` is modelled as an arbitrary interleaving of single accesses to shared
   memory, with an arbitrary assignment of iterations to threads. Sequential consistency is assumed.
7. **Linear solves.** Where the code calls a dense Eigen factorisation (the joint blocks of ABA, the damped
   Delassus operator of ADMM) the model uses the exact inverse, under the hypothesis that it exists.
8. **Assertions** (`assert`, `PINOCCHIO_ASSERT…`) are compiled out in release builds and not modelled;
   `PINOCCHIO_CHECK_INPUT_ARGUMENT`/`PINOCCHIO_THROW` are exceptions.

### Not modelled

Floating point rounding, Eigen expression-template aliasing, memory allocation, code generation
(CasADi/CppAD), Python bindings, visualisers, collision geometry itself (coal/hpp-fcl: an oracle per pair),
file parsers' XML layer. Archives are sequences of primitive values: their character or bit encoding, versions and
object tracking (Boost.Serialization) are not modelled; `Data`, CSV files and `StaticBuffer` are not serialised in the
model.

## Plan per property

| id | what is modelled | how it is proved |
|----|------------------|------------------|
| C01–C04 | `Model` record with `List` tables; `addJoint`, `addFrame`, `appendBodyToJoint`, … as `Model → args → Except Error Model` | invariant by induction over an arbitrary op list; rejected op ⇒ state unchanged; independent `Spec` of ancestor relation as an inductive predicate |
| C05–C08, C10 | concrete 3-vectors, 3×3 matrices, `SE3`, `Motion`, `Force`, `Symmetric3`, `Inertia` over a commutative ring | component-wise ring identities; orthogonality hypotheses used through explicit linear combinations |
| C09 | `toDynamicParameters`, pseudo inertia, log-Cholesky | round trips by field computation, positivity via Cholesky factor over ℝ |
| C11–C21 | algorithms as folds over joints on arbitrary trees, arbitrary prior data | generic forward/backward pass lemmas (every pass satisfies its recurrence), then the *virtual power* identity Σᵢ⟨Sᵢwᵢ, fᵢ⟩ = Σᵢ⟨Vᵢ(w), Fᵢ⟩; negation witnesses for stale reads |
| C22 | dense array Cholesky loop with `parents_fromRow`, `nvSubtree_fromRow` | loop invariants over the elimination order |
| C23 | `computeMinverse` | via ABA/RNEA inverse relation |
| C24–C27 | Lie-group segment operations, model-level loops | over ℝ; norm-contraction identity d' = (d³−3d²)/4 for drift |
| C28–C30 | geometry state machine | refinement to a finite set of unordered pairs; stale mapping after `removeGeometryObject` as negation witness |
| C31, C32 | cone projection, PGS sweep | real algebra, invariant over sweeps; negation witness for the residual |
| C33–C35 | pools and parallel loops | permutation/assignment-invariance; negation witness for `ModelPool::resize` |
| C36–C38 | model algorithms | induction over supports; negation witnesses for dropped armature |
| C39 | joint types as inductive with `calc` | per-type identities; derivative via dual numbers |
| C40 | regressor | linearity of RNEA in inertias |
| C41, C42 | quaternion, tridiagonal | algebra / induction on size |
| C43 | energy passes | derivative of the energies along trajectories: the same recursions over dual numbers |
| C44, C45 | `computeJointJacobiansTimeVariation`, `dccrba`, `computeCentroidalMapTimeVariation` | derivative over dual numbers; exact correction term for joints whose subspace moves |
| C46 | `computeMinverse(model, data)` | reuse of C23 on the data left by `aba` |
| C47 | `getRelativePlacement` | composition along the supports |
| C48–C51 | ADMM, PGS contact inverse dynamics, cone quantities | real algebra, invariants over iterations |
| C52 | kinematic derivatives | run forwardKinematics on dual numbers; support induction on columns |
| C53 | `rnea-derivatives.hxx` | run `rnea` on dual numbers; variation of the torque as a sum on pairs of coordinates; invariants of the two passes |
| C54 | `aba-derivatives.hxx` | implicit: the acceleration over dual numbers whose `rnea` is the varied torque; the passes give the inverse inertia (C23) and the matrices of C53 |
| C55 | `centroidal-derivatives.hxx`, `center-of-mass-derivatives.hxx` | variation of the sums of momenta and of forces on dual numbers, exchanged into columns per joint; invariants of the passes; change of point to the moving centre of mass |
| C56 | `compute-all-terms.hxx` | invariants of the two passes shared with `crba`, `dccrba`, `nonLinearEffects`; each field compared with the other algorithm through the specification |
| C57 | `spatial/explog.hpp`, `log.hxx`, `explog-quaternion.hpp`, `liegroup/*.hpp`, `joint-configuration.hxx` (derivatives) | exponential specified as the end of a motion with constant velocity (differential equation over `ℝ`); derivatives are `HasDerivAt` along arbitrary curves; per group, then assembled over the joints of a model |
| C58 | `contact-dynamics.hxx` | elimination of the multipliers with the factorisation of C22; positive definiteness of `J M⁻¹ Jᵀ + μ`; block inverse; energies through the kinetic form. `Eigen::LLT` is the exact solution |
| C59 | `contact-info.hpp` (`init`, `calc`, `jacobian`, `jacobian_matrix_product`), `contact-jacobian.hxx` | invariant of the walk of the two paths to the root (what is marked, what is common); every column is the difference of one linear map of the joint column per frame; sums by support as in C17; derivatives by moving placements |
| C60 | `contact-cholesky.hpp`, `contact-cholesky.hxx`: tables of `allocate`, `compute`, `updateDamping`, products, solves, inverse, blocks, Delassus expression | tables shown equal to those of the mass matrix shifted; the factorisation invariant of C22 over rows that nest; segments that need not nest for `inverse`; blocks of `U D Uᵀ`; signs of the pivots by induction from the last row |
| C61 | `constraintDynamics`, `impulseDynamics` with rigid constraint models: passes, right-hand side with Baumgarte feedback, proximal loop, forces | passes shown equal to those of `crba` and RNEA; the solve by C60; the loop by an invariant on the distance to the exact multipliers; drift against frame accelerations; witnesses over ℚ for the residual, `max_iter = 0` and impacts between two bodies |
| C62 | `serialize` of joints, models and geometry models over the four archives, as sequences of primitive values | a law "load after save" for each type, by induction on nested joints; concrete losses as counterexamples |
| C63 | `operator==` and `cast` of joints and models | members equal from equality of saved values; reflexivity without NaN; identity and structure of conversions; counterexamples |
| C64 | `Model/Urdf.lean`: the URDF tree, `parseTree`, the visitor, the root joint, `convertFromUrdf`, over any collection of joint types; `Spec/Urdf.lean`: what each joint of a description says, read by names | mutual induction over the tree: each link step extends the tables and meets the description of its joint; the properties of earlier steps are stable under extension; positions through `Model.toSys` |
| C65 | `Math/Rpy.lean`: the five functions of `math/rpy.hxx` over the reals, with Eigen's `eulerAngles`; `Spec/Rpy.lean`: elementary rotations, angular velocity in the world frame | polar form of `atan2`; the cofactor equations of a rotation determine the other six entries; uniqueness of the angles; derivatives entry by entry |
| C66 | `Model/DataTables.lean`: the constructor `DataTpl(model)` on its index tables with checked accesses, and `checkData` | loop invariants on tables seen as functions of the row; injectivity of the numbering of rows; the check unfolded to the absence of gaps in subtrees |
| C67 | `Algo/Hessian.lean`: the loops that fill `data.kinematic_hessians` and the tensor returned, on the tables of C02 and C66 | invariant on the slices written; contraction with a direction as a linear map of the velocity; derivative of the Jacobian over dual numbers |
| C68 | `Algo/DelassusOp.lean`: the dense and sparse operators as state machines; the Cholesky decompositions of Eigen are any solver that solves the systems it accepts; the addition of the scalars is a parameter | invariant on histories of calls: the matrix last factorised |
| C69 | `Math/Eigenvalues.lean`: the two loops over any real inner product space, NaN an outcome of its own | induction on the iterations: Cauchy–Schwarz makes the estimates grow, their product is the norm of the power |
| C70 | `Geom/Query.lean`: the loop over pairs of `computeDistances` and `computeBodyRadius`; the collision library is any function of the placements | invariant of the loop (first minimum); convexity of the squared norm along each edge of a box |
| C71 | `Math/Lanczos.lean`: the loop of `compute` with its break, the residual and Gram–Schmidt, over any real inner product space | invariant: orthonormal columns and three-term recurrence; symmetry makes the rest orthogonal to all the columns |
| C72 | `Algo/Supported.lean`: both functions, the loop on the frames with its list of child frames | invariant of the loop: the list is the frames after `f` seen so far; momentum of a sum of inertias; recursion of `rnea` on the children |
| C73 | `Geom/Broadphase.lean`: constructor, the passes of `update`, `check`, the callback, flat and tree managers; the collision library is given by its answers | invariant of the manager over any history; fold lemmas for each pass; inflated boxes of a pair within its margin meet; induction over the pairs presented |
| C74 | `LieGroup/Random.lean`: the random functions of the groups and the loop over the joints, on numbers with infinities and overflow; `rand()` is any stream | induction over the joints with the tiling of C27; polar coordinates for the coverage of circles and quaternions |
| C75 | `Model/Srdf.lean`: the three readers of `parsers/srdf.hxx`, on the list of tags of the document (XML syntax left out) | induction over the tags; the erasing loop through the invariant of C28; disjoint segments of C02 for the configurations and the rotors |
| C76 | `Algo/Delassus.lean`: the three loops of `computeDelassusMatrix`, the propagators and lambdas of a contact, the blocks; `computeDampedDelassusMatrixInverse` (`Pv = false`) | response of the tree to a unit contact force: articulated inertias with the contact inertias (descending induction), then the propagation along the two supports from their common ancestor; compared with a response defined by the mass form alone |
| C77 | `Model/Mimic.lean`: `transformJointIntoMimic`, `buildMimicModel` with their two loops over the joints, the parameter copies and the mimic tables; joint types that cannot mimic are a parameter `mk` | closed form of the two loops (the vectors with one segment cut out), the construction invariant for the result, induction on the list of pairs; motion and torques by comparison of the two systems joint by joint and by virtual power |
| C78 | `Algo/CrbaMimic.lean`: both conventions of `crba` on models with mimic joints, with the accesses out of range as undefined behaviour; tables from `Model.mimTab` (`Model/DataTables.lean`) | invariant of the backward pass on the joints that are not mimic joints; each mimic step adds the products of the mimic joint with every joint (rows below, columns above); the mass matrix of the extended system folded along the mimic relation; local convention: on zero `Fcrb` the backward pass is that of the model where mimic joints do not move, and each mimic step equals the world one (`Algo/CrbaMimicLocal.lean`); tables of a built model describe its system (`Model/MimTabLemmas.lean`) |
| C79 | `Algo/Pv.lean`: `initPvSolver` and `pv`, with the slots of the constraint columns in the buffers of the ancestors, the contact loop with its feedback, and the proximal loop; the solve by the inverse matrix | `Algo/PvCore.lean`: the slots of the children of a joint are disjoint and cover it; induction from the leaves for the power identity of a tree with constraint columns; `Algo/PvPasses.lean`: the passes compute these recursions; `Algo/PvMain.lean`: the root matrix is positive (energy of the motion that the multipliers alone produce), so the solve is exact; history by an inductive set of reachable states |
| C80 | `Algo/PvAba.lean`: `constrainedABA`, with the penalties, the backward and forward passes, the loop with its reduced passes on the joints that support a contact, and the sweep on the others | `Algo/PvAbaLemmas.lean`: the reduced passes compute the response to contact loads; `Algo/PvAbaMain.lean`: invariant of the loop (the state solves the equations of motion with the multipliers so far and the penalty on the current error), then `C79_unique`; history by an inductive predicate; convergence: runs with `max_iter` one apart, and decrease of the squared distance of the multipliers to any solution |
| C81 | `Algo/ContactAba.lean`: `contactABA`, with its four passes over the tree, the loops over the contacts and the proximal loop | `Algo/ContactAbaLemmas.lean`: the passes as articulated-body recursions in the world frame; `Algo/ContactAbaMain.lean`: invariant of the loop (the state solves the equations with the current forces and the penalty), regularity from the masses and `mu >= 0`, decrease of the squared distance to any solution in each turn, coupling of two runs |
| C82 | `Algo/PvDelassus.lean`: `initPvDelassus`, `findGreatestCommonAncestor`, `computePvDelassusMatrix`, and `computeDampedDelassusMatrixInverse` with its default `Pv = true` | `Algo/PvDelassusTab.lean`, `Algo/PvDelassusInit.lean`: what the tables of accumulation joints mean, by induction over the tree; `Algo/PvDelassusCore.lean`: forces propagated to an ancestor and the motion they cause there, as recursive functions, linear; `Algo/PvDelassusMain.lean`: invariant of the backward loop (each accumulation joint holds the difference between its own inverse inertia and that at the top of its chain); `Algo/PvDelassusFin.lean`: the propagators of a contact, each block through the greatest common ancestor; then C76 |
| C83 | `Spatial/ActOnSet.lean`: the eight functions of `spatial/act-on-set.hxx` with `=`, `+=`, `-=`, on column blocks of one storage, every write in the order of the code | `Spatial/ActOnSetLemmas.lean`: each column step is one update of the output column when input and output columns differ (or when no value is read after it is overwritten); induction over the columns, no column being read after it is written. In place and forward overlap: counterexamples |
| C84 | `Algo/RefFrame.lean`: the two `changeReferenceFrame` and the two `classicAcceleration` | Specification by the velocity of every point, the resultant and the moment about every point; case by case over the nine pairs, then composition from the fact that these determine the motion and the force. `classicAcceleration`: derivative of the product of rotation and velocity |
| C85 | `Algo/Workspace.lean`, `WorkspaceVel.lean`: `generateCombination`, `productCombination`, `computeJointVel` and the loops of `computeVertex` that form the velocities | Lexicographic order: the successor leaves no gap and the number of later combinations falls by one at each turn (hockey-stick sum of binomials), so that the `C(n,k)` turns end on the last one; a product is the base-`m` digits of the call number. The two counters of each scan are the numbers of sampled and of other degrees of freedom passed, whence the velocity of each. Counterexample at `facet_dims = 1` |

## Coverage

Generated by `tools/coverage.py` from the citations in the comments of the model. A line of code counts when it lies in a
cited range (comments, preprocessor lines, `template`, `typedef` and lone braces are left out of the totals).

| file of the repository (below `include/pinocchio`) | lines modelled | modules |
|---|---|---|
| `algorithm/aba-derivatives.hxx` | 418 of 660 | `Algo/AbaDerivatives` |
| `algorithm/aba.hpp` | 11 of 38 | `Algo/Minverse`, `Par/Defs` |
| `algorithm/aba.hxx` | 429 of 546 | `Algo/Aba`, `Algo/Minverse`, `Par/Defs`, `Spatial/Inertia` |
| `algorithm/admm-solver.hxx` | 58 of 145 | `Contact/Defs` |
| `algorithm/center-of-mass-derivatives.hxx` | 32 of 42 | `Algo/CentroidalDerivatives` |
| `algorithm/center-of-mass.hxx` | 292 of 385 | `Algo/Com` |
| `algorithm/centroidal-derivatives.hxx` | 226 of 323 | `Algo/CentroidalDerivatives` |
| `algorithm/centroidal.hxx` | 241 of 307 | `Algo/Centroidal` |
| `algorithm/check-data.hxx` | 102 of 106 | `Model/DataTables` |
| `algorithm/cholesky.hxx` | 83 of 323 | `Algo/Cholesky` |
| `algorithm/compute-all-terms.hxx` | 104 of 131 | `Algo/AllTerms` |
| `algorithm/constrained-dynamics.hxx` | 490 of 692 | `Algo/ConstraintDynamics`, `Algo/ContactAba` |
| `algorithm/constraints/coulomb-friction-cone.hpp` | 96 of 117 | `Contact/Defs` |
| `algorithm/contact-cholesky.hpp` | 103 of 252 | `Algo/ContactCholesky` |
| `algorithm/contact-cholesky.hxx` | 234 of 381 | `Algo/ContactCholesky` |
| `algorithm/contact-dynamics.hxx` | 185 of 191 | `Algo/ContactDynamics` |
| `algorithm/contact-info.hpp` | 403 of 528 | `Algo/Constraint`, `Algo/ConstraintDynamics`, `Algo/ContactAba`, `Algo/Delassus`, `Algo/Pv`, `Algo/PvDelassus` |
| `algorithm/contact-inverse-dynamics.hpp` | 93 of 137 | `Contact/Defs` |
| `algorithm/contact-jacobian.hxx` | 108 of 109 | `Algo/Constraint` |
| `algorithm/contact-solver-utils.hpp` | 90 of 92 | `Contact/Defs` |
| `algorithm/crba.hxx` | 212 of 301 | `Algo/Crba`, `Algo/CrbaMimic`, `Algo/Subtree` |
| `algorithm/delassus-operator-dense.hpp` | 50 of 66 | `Algo/DelassusOp` |
| `algorithm/delassus-operator-sparse.hpp` | 82 of 114 | `Algo/DelassusOp` |
| `algorithm/delassus.hpp` | 0 of 41 | `Props/Delassus` |
| `algorithm/delassus.hxx` | 431 of 484 | `Algo/Delassus`, `Algo/PvDelassus` |
| `algorithm/energy.hxx` | 81 of 114 | `Algo/Energy` |
| `algorithm/frames-derivatives.hxx` | 104 of 105 | `Algo/KinDerivatives` |
| `algorithm/frames.hxx` | 251 of 262 | `Algo/Jacobian`, `Algo/Supported` |
| `algorithm/geometry.hxx` | 33 of 46 | `Geom/Defs`, `Par/Defs` |
| `algorithm/impulse-dynamics.hxx` | 113 of 114 | `Algo/ConstraintDynamics` |
| `algorithm/jacobian.hxx` | 283 of 515 | `Algo/Jacobian` |
| `algorithm/joint-configuration.hxx` | 282 of 419 | `LieGroup/Defs`, `LieGroup/ExpLog`, `LieGroup/Random` |
| `algorithm/kinematics-derivatives.hxx` | 655 of 937 | `Algo/Hessian`, `Algo/KinDerivatives` |
| `algorithm/kinematics.hxx` | 183 of 263 | `Algo/Kinematics`, `Model/Ancestor` |
| `algorithm/model.hpp` | 9 of 83 | `Model/Reduce` |
| `algorithm/model.hxx` | 549 of 646 | `Algo/Delassus`, `Model/Ancestor`, `Model/Append`, `Model/Mimic`, `Model/Reduce` |
| `algorithm/parallel/aba.hpp` | 12 of 36 | `Par/Defs` |
| `algorithm/parallel/rnea.hpp` | 19 of 36 | `Par/Defs` |
| `algorithm/pgs-solver.hxx` | 84 of 85 | `Contact/Defs` |
| `algorithm/proximal.hpp` | 50 of 51 | `Algo/ConstraintDynamics` |
| `algorithm/pv.hpp` | 0 of 46 | `Props/Pv`, `Props/PvAba` |
| `algorithm/pv.hxx` | 462 of 493 | `Algo/Pv`, `Algo/PvAba` |
| `algorithm/regressor.hxx` | 256 of 329 | `Algo/Regressor` |
| `algorithm/rnea-derivatives.hxx` | 341 of 522 | `Algo/RneaDerivatives` |
| `algorithm/rnea.hxx` | 351 of 481 | `Algo/Coriolis`, `Algo/Rnea`, `Par/Defs` |
| `algorithm/utils/force.hpp` | 32 of 41 | `Algo/RefFrame` |
| `algorithm/utils/motion.hpp` | 32 of 41 | `Algo/RefFrame` |
| `collision/broadphase-callbacks.hpp` | 74 of 96 | `Geom/Broadphase` |
| `collision/broadphase-manager.hpp` | 33 of 67 | `Geom/Broadphase` |
| `collision/broadphase-manager.hxx` | 113 of 129 | `Geom/Broadphase` |
| `collision/broadphase.hpp` | 13 of 46 | `Geom/Broadphase` |
| `collision/collision.hxx` | 93 of 100 | `Geom/Query`, `Par/Defs` |
| `collision/distance.hxx` | 50 of 59 | `Geom/Query` |
| `collision/parallel/geometry.hpp` | 37 of 89 | `Par/Defs` |
| `collision/tree-broadphase-manager.hxx` | 28 of 75 | `Geom/Broadphase` |
| `extra/reachable-workspace.hxx` | 69 of 187 | `Algo/Workspace`, `Algo/WorkspaceVel` |
| `fwd.hpp` | 4 of 25 | `Spatial/ActOnSet` |
| `math/eigenvalues.hpp` | 66 of 111 | `Math/Eigenvalues` |
| `math/gram-schmidt-orthonormalisation.hpp` | 10 of 11 | `Math/Lanczos` |
| `math/lanczos-decomposition.hpp` | 43 of 78 | `Math/Lanczos` |
| `math/quaternion.hpp` | 63 of 124 | `LieGroup/Defs`, `LieGroup/Random`, `Math/Quaternion` |
| `math/rotation.hpp` | 22 of 47 | `Joint/Defs` |
| `math/rpy.hpp` | 0 of 23 | `Props/Rpy` |
| `math/rpy.hxx` | 110 of 112 | `Math/Rpy` |
| `math/sincos.hpp` | 18 of 25 | `Joint/Defs` |
| `math/taylor-expansion.hpp` | 4 of 8 | `LieGroup/Defs` |
| `math/tridiagonal-matrix.hpp` | 143 of 280 | `Math/Tridiagonal` |
| `multibody/data.hpp` | 132 of 161 | `Algo/Cholesky`, `Algo/ContactDynamics`, `Algo/Data`, `Algo/Delassus`, `Algo/Pv`, `Algo/PvDelassus`, `Algo/Regressor` |
| `multibody/data.hxx` | 118 of 314 | `Algo/Cholesky`, `Algo/Hessian`, `Algo/PvDelassus`, `Algo/Rows`, `Algo/Subtree`, `Contact/Defs`, `Model/DataTables` |
| `multibody/frame.hpp` | 11 of 101 | `Model/Construction`, `Model/Equality` |
| `multibody/geometry-object.hpp` | 56 of 215 | `Geom/Broadphase`, `Model/Serialize` |
| `multibody/geometry.hpp` | 90 of 97 | `Geom/Defs`, `Model/Serialize` |
| `multibody/geometry.hxx` | 230 of 293 | `Geom/Defs` |
| `multibody/joint/joint-basic-visitors.hxx` | 12 of 442 | `Model/Mimic`, `Model/Serialize` |
| `multibody/joint/joint-collection.hpp` | 25 of 60 | `Model/Serialize` |
| `multibody/joint/joint-common-operations.hpp` | 20 of 44 | `Algo/Aba`, `Joint/Defs` |
| `multibody/joint/joint-composite.hpp` | 70 of 355 | `Joint/Defs`, `LieGroup/Defs`, `Model/Equality`, `Model/Serialize` |
| `multibody/joint/joint-composite.hxx` | 29 of 141 | `Joint/Defs` |
| `multibody/joint/joint-free-flyer.hpp` | 23 of 158 | `Joint/Defs` |
| `multibody/joint/joint-generic.hpp` | 2 of 192 | `Model/Equality` |
| `multibody/joint/joint-helical-unaligned.hpp` | 21 of 340 | `Algo/Data`, `Joint/Defs`, `Model/Equality` |
| `multibody/joint/joint-helical.hpp` | 30 of 410 | `Joint/Defs` |
| `multibody/joint/joint-mimic.hpp` | 109 of 361 | `Joint/Defs`, `Model/Construction`, `Model/Equality`, `Model/MimTabLemmas`, `Model/Mimic`, `Model/Reach`, `Model/Serialize`, `Model/ToSys`, `Model/Urdf` |
| `multibody/joint/joint-model-base.hpp` | 79 of 247 | `Algo/Data`, `Model/Construction`, `Model/Equality`, `Model/Mimic`, `Model/Reduce`, `Model/Serialize`, `Model/ToSys` |
| `multibody/joint/joint-planar.hpp` | 21 of 297 | `Joint/Defs` |
| `multibody/joint/joint-prismatic-unaligned.hpp` | 18 of 293 | `Joint/Defs`, `Model/Equality` |
| `multibody/joint/joint-prismatic.hpp` | 15 of 300 | `Joint/Defs` |
| `multibody/joint/joint-revolute-unaligned.hpp` | 16 of 303 | `Algo/Data`, `Joint/Defs`, `Model/Equality` |
| `multibody/joint/joint-revolute-unbounded-unaligned.hpp` | 18 of 121 | `Joint/Defs`, `Model/Equality` |
| `multibody/joint/joint-revolute-unbounded.hpp` | 17 of 106 | `Joint/Defs` |
| `multibody/joint/joint-revolute.hpp` | 41 of 363 | `Joint/Defs` |
| `multibody/joint/joint-spherical-ZYX.hpp` | 39 of 219 | `Joint/Defs` |
| `multibody/joint/joint-spherical.hpp` | 25 of 243 | `Joint/Defs` |
| `multibody/joint/joint-translation.hpp` | 15 of 257 | `Joint/Defs` |
| `multibody/joint/joint-universal.hpp` | 62 of 274 | `Joint/Defs`, `Model/Equality` |
| `multibody/liegroup/cartesian-product.hpp` | 6 of 208 | `LieGroup/Random` |
| `multibody/liegroup/liegroup-algo.hxx` | 108 of 376 | `LieGroup/Defs`, `LieGroup/ExpLog`, `LieGroup/Random` |
| `multibody/liegroup/liegroup-base.hxx` | 15 of 426 | `LieGroup/Defs` |
| `multibody/liegroup/liegroup.hpp` | 12 of 14 | `LieGroup/Defs` |
| `multibody/liegroup/special-euclidean.hpp` | 447 of 565 | `LieGroup/Defs`, `LieGroup/ExpLog`, `LieGroup/Random` |
| `multibody/liegroup/special-orthogonal.hpp` | 235 of 402 | `LieGroup/Defs`, `LieGroup/ExpLog`, `LieGroup/Random` |
| `multibody/liegroup/vector-space.hpp` | 83 of 187 | `LieGroup/Defs`, `LieGroup/ExpLog`, `LieGroup/Random` |
| `multibody/model.hpp` | 109 of 132 | `Algo/Data`, `Model/Construction`, `Model/Reach`, `Model/Reduce`, `Model/Serialize`, `Model/ToSys` |
| `multibody/model.hxx` | 323 of 351 | `Algo/Delassus`, `Algo/Hessian`, `Algo/Jacobian`, `Model/Construction`, `Model/Equality`, `Model/Mimic`, `Model/Reduce`, `Model/Urdf` |
| `multibody/pool/geometry.hpp` | 79 of 80 | `Par/Defs` |
| `multibody/pool/model.hpp` | 57 of 58 | `Par/Defs` |
| `parsers/srdf.hxx` | 154 of 191 | `Model/Srdf` |
| `parsers/urdf/model.hxx` | 250 of 500 | `Model/Urdf` |
| `serialization/archive.hpp` | 10 of 86 | `Model/Serialize` |
| `serialization/eigen.hpp` | 33 of 150 | `Model/Serialize` |
| `serialization/frame.hpp` | 8 of 14 | `Model/Serialize` |
| `serialization/geometry.hpp` | 28 of 51 | `Model/Serialize` |
| `serialization/inertia.hpp` | 13 of 18 | `Model/Serialize` |
| `serialization/joints-model.hpp` | 145 of 164 | `Model/Serialize` |
| `serialization/model.hpp` | 41 of 45 | `Model/Serialize` |
| `serialization/motion.hpp` | 9 of 17 | `Model/Serialize` |
| `serialization/se3.hpp` | 8 of 11 | `Model/Serialize` |
| `serialization/symmetric3.hpp` | 9 of 13 | `Model/Serialize` |
| `spatial/act-on-set.hxx` | 222 of 360 | `Spatial/ActOnSet` |
| `spatial/cartesian-axis.hpp` | 24 of 83 | `Spatial/Inertia` |
| `spatial/classic-acceleration.hpp` | 35 of 36 | `Algo/KinDerivatives`, `Algo/RefFrame` |
| `spatial/explog-quaternion.hpp` | 98 of 147 | `LieGroup/Defs`, `LieGroup/ExpLog` |
| `spatial/explog.hpp` | 239 of 285 | `LieGroup/ExpLog` |
| `spatial/force-dense.hpp` | 28 of 109 | `Spatial/ActOnSet`, `Spatial/SE3` |
| `spatial/inertia.hpp` | 460 of 590 | `Model/Equality`, `Spatial/ActOnSet`, `Spatial/Inertia`, `Spatial/Parameters` |
| `spatial/log.hxx` | 195 of 210 | `LieGroup/Defs`, `LieGroup/ExpLog` |
| `spatial/motion-dense.hpp` | 53 of 138 | `Spatial/ActOnSet`, `Spatial/Inertia`, `Spatial/SE3` |
| `spatial/motion-tpl.hpp` | 3 of 90 | `Model/Equality` |
| `spatial/se3-tpl.hpp` | 37 of 178 | `Model/Ancestor`, `Model/Equality`, `Spatial/Inertia`, `Spatial/SE3` |
| `spatial/skew.hpp` | 69 of 96 | `LieGroup/ExpLog`, `Spatial/Inertia`, `Spatial/Vec` |
| `spatial/symmetric3.hpp` | 151 of 308 | `Model/Urdf`, `Spatial/ActOnSet`, `Spatial/Inertia` |
| `src/parsers/urdf/model.cpp` | 168 of 193 | `Model/Urdf` |
| `src/parsers/urdf/utils.cpp` | 4 of 7 | `Model/Urdf` |

Files with no line modelled, with their numbers of lines (`bindings`, `codegen`, `autodiff`, `context`, `visualizers`, and the explicit instantiations, are not modelled either and not listed):

* `.`: `context.hpp` 0, `deprecated-macros.hpp` 0, `deprecated-namespaces.hpp` 1, `deprecation.hpp` 0, `eigen-macros.hpp` 26, `macros.hpp` 50, `unsupported.hpp` 0
* `algorithm`: `aba-derivatives.hpp` 97, `admm-solver.hpp` 148, `center-of-mass-derivatives.hpp` 8, `center-of-mass.hpp` 92, `centroidal-derivatives.hpp` 33, `centroidal.hpp` 64, `check-base.hpp` 8, `check-data.hpp` 4, `check-model.hpp` 12, `check-model.hxx` 25, `check.hpp` 0, `cholesky.hpp` 81, `compute-all-terms.hpp` 10, `constrained-dynamics-derivatives.hpp` 82, `constrained-dynamics-derivatives.hxx` 619, `constrained-dynamics.hpp` 68, `constrained-problem-data.hpp` 0, `contact-dynamics.hpp` 83, `contact-jacobian.hpp` 24, `contact-solver-base.hpp` 47, `contact.hpp` 1, `contact.hxx` 0, `copy.hpp` 21, `crba.hpp` 10, `default-check.hpp` 5, `delassus-operartor-ref.hpp` 0, `delassus-operator-base.hpp` 88, `delassus-operator-rigid-body.hpp` 0, `energy.hpp` 35, `frames-derivatives.hpp` 125, `frames.hpp` 138, `fwd.hpp` 11, `geometry.hpp` 16, `impulse-dynamics-derivatives.hpp` 38, `impulse-dynamics-derivatives.hxx` 272, `impulse-dynamics.hpp` 18, `jacobian.hpp` 57, `joint-configuration.hpp` 513, `kinematics-derivatives.hpp` 128, `kinematics.hpp` 52, `pgs-solver.hpp` 18, `regressor.hpp` 111, `rnea-derivatives.hpp` 78, `rnea-second-order-derivatives.hpp` 38, `rnea-second-order-derivatives.hxx` 311, `rnea.hpp` 63
* `algorithm/constraints`: `constraint-data-base.hpp` 6, `constraint-data-generic.hpp` 40, `constraint-model-base.hpp` 44, `constraint-model-generic.hpp` 24, `constraints.hpp` 1, `fwd.hpp` 12
* `algorithm/constraints/visitors`: `constraint-model-visitor.hpp` 129
* `algorithm/parallel`: `geometry.hpp` 1, `omp.hpp` 4
* `collision`: `broadphase-callbacks.hxx` 0, `broadphase-manager-base.hpp` 53, `broadphase.hxx` 0, `collision.hpp` 26, `distance.hpp` 21, `fcl-pinocchio-conversions.hpp` 6, `tree-broadphase-manager.hpp` 28
* `collision/parallel`: `broadphase.hpp` 84
* `collision/pool`: `broadphase-manager.hpp` 58, `fwd.hpp` 21
* `container`: `aligned-vector.hpp` 2, `boost-container-limits.hpp` 3
* `core`: `binary-op.hpp` 4, `unary-op.hpp` 1
* `extra`: `reachable-workspace.hpp` 74
* `math`: `casadi.hpp` 1, `comparison-operators.hpp` 16, `cppad.hpp` 1, `cppadcg.hpp` 1, `fwd.hpp` 28, `matrix-block.hpp` 109, `matrix.hpp` 100, `multiprecision-mpfr.hpp` 28, `multiprecision.hpp` 171, `sign.hpp` 3, `tensor.hpp` 159, `triangular-matrix.hpp` 26
* `multibody`: `fcl.hpp` 26, `force-set.hpp` 88, `fwd.hpp` 19, `geometry-object-filter.hpp` 11, `geometry-object.hxx` 18, `instance-filter.hpp` 11, `joint-motion-subspace-base.hpp` 71, `joint-motion-subspace-generic.hpp` 90, `joint-motion-subspace.hpp` 3, `model-item.hpp` 25, `sample-models.hpp` 13, `sample-models.hxx` 279, `visitor.hpp` 0
* `multibody/joint`: `fwd.hpp` 54, `joint-base.hpp` 0, `joint-basic-visitors.hpp` 118, `joint-data-base.hpp` 121, `joints.hpp` 0
* `multibody/liegroup`: `cartesian-product-variant.hpp` 144, `cartesian-product-variant.hxx` 327, `fwd.hpp` 2, `liegroup-algo.hpp` 0, `liegroup-base.hpp` 227, `liegroup-collection.hpp` 13, `liegroup-generic.hpp` 35, `liegroup-variant-visitors.hpp` 136, `liegroup-variant-visitors.hxx` 469
* `multibody/pool`: `fwd.hpp` 7
* `multibody/visitor`: `fusion.hpp` 35, `joint-binary-visitor.hpp` 120, `joint-unary-visitor.hpp` 111
* `parsers`: `meshloader-fwd.hpp` 5, `mjcf.hpp` 74, `python.hpp` 4, `sample-models.hpp` 1, `sdf.hpp` 78, `srdf.hpp` 24, `urdf.hpp` 90, `utils.hpp` 37
* `parsers/mjcf`: `geometry.hxx` 13, `mjcf-graph.hpp` 208, `model.hxx` 101
* `parsers/sdf`: `geometry.hxx` 36, `model.hxx` 480
* `parsers/urdf`: `geometry.hxx` 44, `types.hpp` 25, `utils.hpp` 4
* `serialization`: `aligned-vector.hpp` 11, `csv.hpp` 5, `data.hpp` 122, `fcl.hpp` 6, `force.hpp` 13, `fwd.hpp` 3, `joints-data.hpp` 141, `joints-motion-subspace.hpp` 68, `joints-motion.hpp` 50, `joints-transform.hpp` 25, `joints.hpp` 0, `serializable.hpp` 37, `spatial.hpp` 0, `static-buffer.hpp` 18, `vector.hpp` 99
* `spatial`: `act-on-set.hpp` 67, `fcl-pinocchio-conversions.hpp` 3, `force-base.hpp` 68, `force-ref.hpp` 63, `force-tpl.hpp` 61, `force.hpp` 3, `fwd.hpp` 20, `log.hpp` 7, `motion-base.hpp` 86, `motion-ref.hpp` 104, `motion-zero.hpp` 32, `motion.hpp` 5, `se3-base.hpp` 68, `se3.hpp` 7, `spatial-axis.hpp` 58
* `src/collision`: `collision.cpp` 13, `distance.cpp` 7
* `src/extra`: `reachable-workspace.cpp` 22
* `src/multibody`: `data.cpp` 4, `model.cpp` 32, `sample-models.cpp` 7
* `src/parsers/mjcf`: `mjcf-graph-geom.cpp` 319, `mjcf-graph.cpp` 737
* `src/parsers/python`: `model.cpp` 36
* `src/parsers/sdf`: `geometry.cpp` 171, `model.cpp` 39
* `src/parsers/urdf`: `geometry.cpp` 248
* `src/utils`: `file-explorer.cpp` 45
* `utils`: `axis-label.hpp` 8, `cast.hpp` 3, `check.hpp` 15, `eigen-fix.hpp` 24, `file-explorer.hpp` 15, `file-io.hpp` 52, `helpers.hpp` 6, `openmp.hpp` 6, `shared-ptr.hpp` 7, `static-if.hpp` 67, `string-generator.hpp` 9, `string.hpp` 9, `timer.hpp` 48, `timer2.hpp` 21, `version.hpp` 10

## Findings

Where the code does not do what the property says, the negation is proved on a concrete input reached through the API
(`…_counterexample`), and the property is proved with the hypothesis that is missing. One line each:

* `C02_universe_counterexample` – The universe is in its own support but not in its own subtree: the two tables disagree at 0.
* `C03_mimic_counterexample` – A mimic joint whose mimicked joint is not yet in the model is rejected *after* the model has been changed: `njoints` is incremented and a joint pushed while every other table keeps its size.
* `C04_multi_mask_counterexample` – `getFrameId` with a mask of several bits can throw on a reachable model: two frames with one name.
* `C08_add_degenerate_counterexample` – C08, negation for degenerate masses: when `0 < ma + mb < eps` the sum does not act as the sum. The witness has mass `eps/2` with lever `(1,0,0)` and a massless body: the resulting first moment is half the right one.
* `C10_rotate_reflection_counterexample` – C10: `rotate` is wrong for reflections (orthogonal, determinant -1): the packed formula needs a proper rotation.
* `C12_order_counterexample` – On joints added in another order than depth first (accepted by `addJoint`), `crba` couples joints of different branches: `rnea ≠ M a + nle`. `CRBAChecker` (`crbaCheck`) detects these models.
* `C13_kinetic_unaligned_counterexample` – `computeKineticEnergy` misses the rotor inertia of joints about general axes, because their `calc(q,v)` does not store the joint velocity the energy computation reads (`energy.hxx:33`, `joint-revolute-unaligned.hpp:676-690`).
* `C16_local_acceleration_counterexample` – `aba` in the local convention also fills `data.a` ("joint accelerations"), by removing gravity with the rotation `data.oMi[i]` (`aba.hxx:478-479`), which no pass of this algorithm computes: on a fresh `data` the field is wrong as soon as the joint has turned. The returned `data.ddq` is not affected.
* `C18_counterexample` – With a `JointModelSphericalZYX`, `C(q,v) v + g(q)` is not `nle(q,v)`.
* `C19_getComFromCrba_counterexample` – `getComFromCrba` after `crba` (world convention) does not return the centre of mass: it moves by `liMi[1]` the lever of `oYcrb[1]`, which is already in the world frame
* `C19_subtree_side_effects_counterexample` – `jacobianSubtreeCenterOfMass` spoils quantities it does not own: after it, the mass stored for the parent of the root of the subtree is no longer the mass of a subtree; with root `0`, `com[0]` is not divided by the mass; and the whole-body Jacobian stored before is lost
* `C21_content_counterexample` – The zeros of the construction matter to `crba`: on a `data` whose `M` holds something else, which no history of calls produces but a user may write, the entries of two joints on different branches stay what they were.
* `C21_squaredDistance_counterexample` – `squaredDistance(model, q0, q1, out)` depends on what `out` contained: the loop adds to it.
* `C25_exact_counterexample` – SO(3): a configuration of norm exactly 1 does not keep norm exactly 1 (in exact arithmetic): every unit quaternion has a velocity that breaks it.
* `C26_antipode_counterexample` – on SO(2), interpolation to the opposite orientation never leaves `q0`, so that it does not end at `q1`
* `C29_counterexample` – **C29 is false in general.** Four objects, pairs (2,3) and (0,2); once the second object is removed the list is (1,2), (0,1), but `existCollisionPair(1,2)` is false, `existCollisionPair(0,2)` is true, and adding the pair (1,2) puts it in the list a second time.
* `C29_undefined` – **C29, undefined behaviour.** One pair (0,1): removing its first object decrements the iterator `begin()`.
* `C31_dual_counterexample` – **Finding (C31).** Without friction, the projection on the dual cone sends separating velocities, which are inside, to zero
* `C31_isInside_counterexample` – **Finding (C31).** Without friction (`mu = 0`, which the constructor accepts) `isInside` accepts tensile forces, which `project` moves
* `C32_counterexample` – **Finding (C32).** One contact on a unit mass that falls at speed 1: with relaxation `1/2` the solver answers after one iteration that it converged with absolute residual exactly `0`, on a force that leaves the contact penetrating at speed `1/2`. The residuals are computed from `velocity.noalias() = G * df`, which forgets the velocity before the increment.
* `C33_aba_checks_counterexample` – **`abaInParallel` does not check `tau`**: whatever its size the call is accepted, whereas the other arguments are checked. The loop then reads `tau.col(i)` outside the matrix.
* `C34_counterexample` – **C34 is false.** Whatever the model, a pool of `size ≥ 1` copies of it that is grown to more than twice its size contains a default-constructed model (and data).
* `C34_geometry_counterexample` – **The geometry pool is not completed at all**: grown, its new geometry models and geometry datas are default-constructed, whatever the sizes.
* `C34_overwrites` – **Existing entries are overwritten.** A pool with two datas grown to three: the second is replaced by the first, the third is a copy of the first.
* `C35_batch_stop_counterexample` – which configurations are reported then depends on the schedule: two configurations in collision, only the first one reported, or only the second one.
* `C35_index_counterexample` – **`collisionPairIndex` depends on the schedule**: two pairs in collision, two threads; the sequential query reports pair 0 (the code says "first pair to be in collision"), an execution where the thread of pair 1 is faster reports pair 1, and there is one where both threads see the flag down and the index is written twice.
* `C37_armature_counterexample` – Parameters: the armature of both models is lost.
* `C37_frame_name_counterexample` – Refused although nothing conflicts: a model in which a body frame has the name of a joint frame (they are told apart by their type everywhere else) cannot be used, the look-up of the parent of a frame being made by name only.
* `C37_inertia_counterexample` – Inertias: when a frame carries an inertia, the code takes it out of the joint without moving it by the placement of the frame, and `addFrame` puts it back moved. Here the joint "c" of the first model has its centre of mass elsewhere in the result.
* `C37_mimic_counterexample` – Undefined behaviour: the descendants of the joint of the frame are copied before the other joints; when one of them mimics a joint that is copied later, the indexes of the latter are read past the end of the list of joints.
* `C38_armature_counterexample` – Parameters of the kept joints: the armature is lost. Kept joints "b" and "d" have armature 2 and 6 in the input, the result has none.
* `C38_ignored_counterexample` – An index that is not a joint is ignored, and so is the universe alone.
* `C38_mass_counterexample` – Total mass: a fixed frame with the name of a joint that is locked later takes the place of the frame of that joint, and the mass of its body is lost (here 1/2).
* `C38_ub_counterexample` – Undefined behaviour: the list of joints to lock starts with the universe (no joint is locked and the frames of the joint to lock are looked up in vain); the model has no frame for the joint to lock; a joint is locked and another one mimics it.
* `C39_mimic_helical_counterexample` – **Finding.** Mimicking a helical joint: `createData()` of a helical joint has pitch `0`, and the mimic joint data copies that subspace and never refreshes it. So the subspace of the mimic joint has no pitch while its velocity has one, and `v = S w` fails, whatever the pitch `h ≠ 0` and the ratio `r ≠ 0`.
* `C40_counterexample` – With rotor inertias the regressor does not reproduce `rnea`: the example robot (which meets every hypothesis of `C40_torque`) has `armature = 1/10`, and the first torque differs by `armature * a`.
* `C42_right_counterexample` – For a right operand which is not square, for instance a vector, `T * X` has no defined result: the block sizes are taken from the columns of the operand. What is missing in `C42_right_partial` is thus false of the code.
* `C44_counterexample` – The motion subspace of `JointModelSphericalZYX` is not constant: the acceleration is not `J̇ v + J a` with the `J̇` of `computeJointJacobiansTimeVariation`.
* `C45_counterexample` – With a `JointModelSphericalZYX`, `dAg v + Ag a` is not the time derivative of the centroidal momentum.
* `C45_mapTimeVariation_counterexample` – `computeCentroidalMapTimeVariation` depends on the history of `data`: on a fresh `Data` it does not return the matrix of `dccrba`
* `C46_counterexample` – `computeMinverse(model, data)` "assumes that ABA has been called first" (`aba.hpp:112-115`), and `aba` uses `Convention::LOCAL` by default (`aba.hpp:47, 86`). In that convention `aba` does not fill `data.J` and leaves `U` in the joint frames, so the returned matrix is not the inverse.
* `C49_correction_counterexample` – **Finding (C49).** The argument `constraint_correction` has no effect: for the documented role it should shift the reference velocity. A unit correction on a contact at rest should push it; the impulses are those without the correction.
* `C49_fresh_data_counterexample` – **Finding (C49).** On a data that has not been through another contact algorithm, calling `computeContactImpulses` without a guess writes past the end of an empty vector
* `C51_counterexample` – **Finding (C51).** A contact between two bodies at the same place: both receive the same force, instead of opposite ones. The net force on the system is `2 λ`, not zero; the work on a common motion of the two bodies is `2`, whereas a contact force does none.
* `C52_acceleration_world_counterexample` – `getJointAccelerationDerivatives` in `WORLD` is not the derivative of the acceleration when a joint with several degrees of freedom (here a spherical joint) is not attached to the universe.
* `C52_constS_counterexample` – With a `JointModelSphericalZYX`, whose motion subspace depends on the configuration, `getJointVelocityDerivatives` is not the derivative of the velocity, in any frame; the condition `Sys.ConstS` cannot be dropped.
* `C52_stale_counterexample` – In `LOCAL`, `getJointVelocityDerivatives` and `getJointAccelerationDerivatives` do not write the configuration columns of joints attached to the universe: what the caller left in the matrix stays there.
* `C52_velocity_lwa_counterexample` – `getJointVelocityDerivatives` in `LOCAL_WORLD_ALIGNED` is the derivative of the velocity in `WORLD`, read at the origin of the joint; it is not the derivative of `getVelocity` in `LOCAL_WORLD_ALIGNED`.
* `C53_armature_counterexample` – The overload with external forces leaves the armature out of `rnea_partial_da`: it is not the derivative of the torque with respect to the acceleration, and not what the overload without external forces returns. The armature is added to `data.M`, which was not asked for and is not reset.
* `C53_constS_counterexample` – With a `JointModelSphericalZYX`, whose motion subspace depends on the configuration, `computeRNEADerivatives` does not return the derivative of the torque; the condition `Sys.ConstS` cannot be dropped.
* `C53_stale_counterexample` – Entries between different branches (here between joints 2 and 3), and the lower triangle of `rnea_partial_da`, are not written: what the caller left in the matrices stays there.
* `C54_after_local_counterexample` – The overloads without `q`, `v` and `tau` after `aba` with its default convention (local): `data.J` is not computed by it, and the result is wrong.
* `C54_constS_counterexample` – With a `JointModelSphericalZYX`, whose motion subspace depends on the configuration, the result is wrong.
* `C54_stale_counterexample` – The entries between different branches of `data.dtau_dq` are work space that the call does not reset: when an earlier computation on the same data left something there, the result is wrong.
* `C55_constS_counterexample` – With a `JointModelSphericalZYX`, whose motion subspace depends on the configuration, the result is wrong.
* `C55_fext_counterexample` – After `computeRNEADerivatives` with external forces, `data.dhg` is not the rate of change of the momentum: the external forces have been taken off.
* `C55_twice_counterexample` – `getCentroidalDynamicsDerivatives` adds the momenta of the children to `data.oh` of their parents: a second call on the same data, nothing else being computed in between, gives another momentum and other derivatives.
* `C55_universe_velocity_counterexample` – `getCentroidalDynamicsDerivatives` uses `data.v[0]` as work space: afterwards the universe has a velocity (`getVelocity` of joint `0` returns it).
* `C56_dhg_gravity_counterexample` – `computeAllTerms` on a fresh `Data` leaves in `data.dhg` the rate of change of the centroidal momentum minus the weight of the robot: it differs from what `computeCentroidalMomentumTimeVariation(q, v, 0)` stores in the same field
* `C56_dhg_history_counterexample` – `computeAllTerms` accumulates the forces in `data.f[0]` and never resets it: a second call with the same arguments leaves a different `data.dhg`
* `C56_subtree_jacobian_counterexample` – `computeAllTerms` is documented as equivalent to a call to `jacobianCenterOfMass`, but leaves the centres of mass of the subtrees in the joint frames: `getJacobianSubtreeCenterOfMass` called after it returns another matrix than after `jacobianCenterOfMass`
* `C57_exp3_derivative_counterexample` – With the machine precision `ε = 2⁻⁵²` and a rotation of angle `2⁻¹⁴` (below the threshold `2⁻¹³`), `Jexp3` misses the derivative of the exponential by more than `40 ε`: the second order term of its coefficient `b` has the wrong sign (`spatial/explog.hpp:136`, `-1/2 - n²/24` instead of `-1/2 + n²/24`).
* `C57_exp6_derivative_counterexample` – At a full turn `Jexp6` divides by zero (`spatial/explog.hpp:513`). Whatever the value `x` of this quotient, the result is not the derivative of the exponential, which exists: with the angular velocity `(2π, s, 0)` and the linear velocity `(1, 0, 0)` the second component of the body velocity is `1/(2π)` and the code's is `0`.
* `C57_quaternion_coefficients_counterexample` – With `ε = 2⁻⁵²`, at a rotation of angle `2⁻¹³`, `Jexp3CoeffWise` misses the derivative of the first coefficient of the quaternion by more than `2⁻³¹`, half of the digits of a `double`: its expansion of the coefficient of `v vᵀ` is `-1/12 + …` (`spatial/explog-quaternion.hpp:316`) where `-1/24 + …` is needed.
* `C57_stale_matrix_counterexample` – `dIntegrate(model, q, v, J, arg, SETTO)` and `dDifference(model, q0, q1, J, arg)`, whose `J` is documented as an output, leave the entries beside the blocks of the joints as they were (`liegroup-algo.hxx:233-248, 378-396`): the derivative comes out wrong unless the caller has filled `J` with zeros.
* `C59_product_counterexample` – `RigidConstraintModel::jacobian_matrix_product` (`algorithm/contact-info.hpp:498-546`) ignores the reference frame: for a `CONTACT_3D` in `LOCAL_WORLD_ALIGNED` it returns the product by the Jacobian of the same constraint in `LOCAL`, not by the one that `jacobian` returns.
* `C61_max_iter_counterexample` – **With `max_iter = 0` the result is not an acceleration**: `constraintDynamics` returns the torques. A mass of 2 pulled by a force 3, no constraint.
* `C61_residual_counterexample` – **The stopping test on the absolute residual is not a test of the constraint.** `constraintDynamics` compares with `absolute_accuracy` the residual of `- J M⁻¹ Jᵀ λ = rhs`, where the motion due to the torques is missing and the sign is wrong. A unit mass held at a point with desired acceleration 1 and pulled by a force 3, with `mu = 1`: the loop stops after one turn of the hundred allowed, reporting an absolute residual of zero, with an acceleration 2.
* `C61_restitution_counterexample` – **Impacts between two moving bodies are wrong.** `impulseDynamics` uses the velocity of the first frame only. Two points that move together, with the velocity 1 along `x`, and a restitution coefficient of zero: their relative velocity is zero before the impact and `-1` after it.
* `C62_infinite_counterexample` – The string format cannot load what it saved when a number is infinite: `loadFromStringStream` and `loadFromString` (`serialization/archive.hpp:110-145`) do not install the facet which reads `inf` and `nan`, unlike `loadFromText`, so that a model with an unbounded joint, whose position limits are infinite, cannot be loaded.
* `C62_material_counterexample` – The material of a geometry object is not saved: `serialize(ar, GeometryObject)` (`serialization/geometry.hpp:51-63`) omits `meshMaterial`, which `operator==` of `GeometryObject` compares; the loaded object has none.
* `C62_mimic_counterexample` – A mimic joint loses two sizes: `JointModelMimic` keeps the numbers of configuration and velocity variables of the joint it follows in `m_nqExtended` and `m_nvExtended`, which `serialization/joints-model.hpp:297-315` does not save, and which its default constructor (`joint/joint-mimic.hpp:586-588`) does not initialise. After loading, `nqExtended()` and `nvExtended()` of the joint are indeterminate, though `operator==` finds the loaded model equal to the one saved.
* `C62_target_counterexample` – Loading a joint may throw depending on the joint loaded into: `load` of `JointModel` first calls `setIndexes` on the joint currently held (`serialization/joints-model.hpp:99-113`, through the base class), and `setIndexes` of a mimic joint throws unless the new id is larger than that of the joint it follows.
* `C63_cast_counterexample` – Converting a mimic joint, even to its own scalar type, changes the joint it follows: `JointModelMimicTpl::cast` (`joint/joint-mimic.hpp:743-753`) passes the extended velocity index of the mimic joint to `setMimicIndexes`, which stores it in the copy of the followed joint.
* `C63_joint_counterexample` – Two joints of different pitch, or two mimic joints of different scaling, offset and followed joint, are found equal: `joint/joint-helical.hpp` and `joint/joint-mimic.hpp` do not define `isEqual`, so that only the indexes are compared (`joint-model-base.hpp:274-286`).
* `C63_model_counterexample` – Two models whose reference configurations have different names, or whose supports differ, or whose universes have different inertias and placements, are found equal by `operator==` (`multibody/model.hxx:305-402`).
* `C63_nan_counterexample` – A model with a NaN, for instance in its inertias, is different from itself.
* `C64_mimic_axis_counterexample` – The axis of a joint which mimics another one is lost when it is not a coordinate axis: the joint turns about the first axis, whatever the description says.
* `C64_mimic_chain_counterexample` – A joint `c` that mimics, with multiplier 2, a joint `b` that mimics, with multiplier 3, a joint `a` moves twice as much as `a`, not six times: the joint reads the coordinate of `a` and keeps its own multiplier.
* `C64_mimic_continuous_counterexample` – A revolute joint that mimics a continuous joint takes for an angle the first coordinate of that joint, which is the cosine of its angle (index 0, where the continuous joint keeps two coordinates).
* `C64_mimic_ignored_counterexample` – The tag `mimic` of a continuous joint is ignored, even with the option `mimic`: the joint gets two coordinates of its own.
* `C64_planar_axis_counterexample` – The axis of a planar joint, which URDF defines as the normal of the plane, is ignored: the plane is always that of the first two axes.
* `C64_root_name_counterexample` – A URDF joint with the same name as the root joint given to `buildModel` (by default `root_joint`) is accepted, and a joint is added for it; but its link, with its mass, is attached to the root joint, since the frame of that name already exists.
* `C64_universe_name_counterexample` – A fixed URDF joint named `universe` is accepted, but the mass of its link is lost: the frame `universe` of the model, which is a fixed joint, is taken for it.
* `C65_half_turn_counterexample` – `math/rpy.hpp:45-46` gives roll the range `[-π, π]`: with the roll `π` and a negative yaw the roll found is not the one given, but `-π`
* `C66_mimic_branch_counterexample` – `multibody/data.hxx:213-226`: `nvSubtree` takes the last row of the subtree from the index of its last joint; when this one is a mimic joint its index is the one of the joint it mimics. With a mimic joint that hangs from another branch than the joint it mimics, the branch is given zero columns, and `model.check(data)` refuses the very `Data` built for the model.
* `C66_mimic_chain_counterexample` – `multibody/data.hxx:213-226`: in a chain whose last joint mimics the first one, the subtree of the first joint is given one column instead of two
* `C66_mimic_subtree_counterexample` – `multibody/data.hxx:228-241`: a mimic joint that carries only mimic joints makes the constructor of `Data` read past the end of a vector
* `C66_no_dof_counterexample` – `multibody/data.hxx:253-298`: a last joint without degree of freedom (an empty composite joint, say) makes the constructor of `Data` write past the end of its tables by row
* `C66_supports_counterexample` – `multibody/data.hxx:323-342`: the loop on the joints adds the rows of a mimic joint to the list of the row it mimics, which then holds the same row twice; `model.check(data)` does not see it
* `C67_local_counterexample` – `getJointKinematicHessian` in `LOCAL` is not the derivative of the Jacobian when a joint with several degrees of freedom (here a spherical joint) is not attached to the universe: it also writes the products of the columns of this joint with one another, although they are constant in the frame of the joint.
* `C68_sparse_drift_counterexample` – The sparse Delassus operator adds the difference of the dampings to its damped matrix in place, so that the rounding errors of all the dampings it was ever given add up. With the additions of `double`, an operator of matrix `1` given the damping `2^60` and then `0` factorises the matrix `0`, although its own `matrix()` is `1`; the dense operator factorises `1`.
* `C68_sparse_failure_counterexample` – When the decomposition fails, `solve` and `solveInPlace` of the sparse Delassus operator return the right-hand side and report nothing: here the damped matrix is zero and the right-hand side is not.
* `C68_sparse_natural_counterexample` – With a decomposition in the natural order (`Eigen::NaturalOrdering`), `solveInPlace` and `solve(mat)` of the sparse Delassus operator return the right-hand side unchanged: the wrapper around the decomposition of Eigen computes the solution and copies it only when there is a permutation.
* `C69_below_counterexample` – The lowest eigenvalue found can lie below the whole spectrum: with the estimates `(1, 0)` and `(0, 2)` of the eigenvectors of `diag(1, 3)`, `run` finds `1` as the largest and `lowest` finds `-1`.
* `C69_early_counterexample` – The first iteration is compared to the norm of the start, which is no estimate: from the start `(1, 1)`, the matrix `diag(0, 2)` gives `√2` at once, although the start is not orthogonal to the eigenvector of the largest eigenvalue `2`.
* `C69_identity_counterexample` – `lowest` is NaN on every non-zero multiple of the identity, thus on every matrix of size one, as soon as two iterations are allowed: the shifted matrix is zero, and the second iteration divides by the norm of its image.
* `C69_negative_counterexample` – The eigenvalue returned as the largest is the largest magnitude: on minus the identity it is `1`, and the only eigenvalue is `-1`.
* `C69_orthogonal_counterexample` – Power iterations that start from the default vector, all of whose entries are equal, do not find the largest eigenvalue of a matrix whose eigenvector is orthogonal to it: on `[2 -1; -1 2]`, whose eigenvalues are `1` and `3`, they stop at the first iteration and return `1`, whatever the tolerance and the limit.
* `C70_radius_counterexample` – `computeBodyRadius` never lowers a radius: called again after an object was moved closer to its joint, here from the distance `2` to the distance `1`, or replaced by a smaller one, it keeps the old radius, because `resize` does not reset the radii.
* `C71_norm_counterexample` – **C71 (finding).** `orthonormalisation` does not normalise: the vector returned has not unit norm.
* `C71_rank_counterexample` – **C71 (finding).** When the loop stops early, `rank()` is one less than the number of columns of the decomposition (it is right only when the loop stops at the first column): for `diag(0, 0, 3)`, two orthonormal columns span a space the matrix leaves invariant, the first column alone does not, and the rank reported is 1.
* `C71_stale_counterexample` – **C71 (finding).** When the loop stops early, the remaining columns of `Qs()` are not set: they hold what the object held before the call (nothing defined after the constructor), so `Qs()` depends on earlier calls.
* `C72_append_counterexample` – for the frame of a joint, without the subtree, the inertia is not `model.inertias` of this joint: what `appendBodyToJoint` adds is in no frame
* `C72_cut_counterexample` – the model is not cut at the frame: the inertia of a tool at the end of the joint 1 contains the joints attached to the joint before the tool
* `C72_rnea_counterexample` – `computeSupportedForceByFrame` asks for `rnea` beforehand, but reads `data.oMi` and `data.a`, which `rnea` does not write: after `rnea` alone, the force depends on what the `data` contained before
* `C72_universe_counterexample` – on a frame of the universe, `computeSupportedInertiaByFrame` with the subtree and `computeSupportedForceByFrame` leave out the joint 1: `model.subtrees[0]` does not contain 0, and the first element is skipped
* `C73_added_counterexample` – a geometry object and a pair added after the manager has been built: `update` reads out of its table
* `C73_flag_counterexample` – the argument `compute_local_aabb` of `update` has no effect: a geometry whose local bounding box has not been computed is put aside in the first pass, so that it is never computed, and the object stays out of the manager
* `C73_flat_counterexample` – a flat geometry (of zero volume) is never tested: the manager reports no collision where `computeCollisions` without manager reports one
* `C73_stale_counterexample` – the results of the pairs that the manager does not meet are those of an earlier query: `collisionResults` still tells that the pair 0 collides, although the query returns false
* `C73_tree_counterexample` – the tree of managers does not look at the pairs of objects of one joint: it reports no collision where the manager and `computeCollisions` without manager report one
* `C74_default_limits_counterexample` – `randomConfiguration(model)` on a model with a joint added without limits throws no exception and returns an infinite or NaN coordinate, whatever the numbers drawn: `addJoint` sets the limits to plus and minus the largest finite number, which the test on infinities accepts, and their difference overflows.
* `C75_append_counterexample` – **After `appendGeometryModel`**, reading a document with disabled collisions is undefined behaviour: the matrix that gives the position of a pair has not been enlarged.
* `C75_duplicate_counterexample` – **A group that appears twice.** The program warns that "only the last instance" is used; the first one is kept. Two groups of the same name give 1 then 2 to the joint "slider": the stored configuration has 1.
* `C75_rotor_throw_counterexample` – **A rejected document leaves the model partly modified**: the first tag is applied, the second one has no gear ratio.
* `C75_rotor_twice_counterexample` – **Reading the rotor parameters twice** adds the apparent inertia twice to the armature.
* `C75_unit_counterexample` – **A configuration outside the configuration space is stored.** The values are copied without normalisation: for a free-flyer, the group may give the quaternion `0 0 0 2`, and the stored reference configuration has a quaternion of norm 2.
* `C75_universe_counterexample` – **A tag that names the universe** is undefined behaviour in both readers: joint 0 is found, and its position in the vectors is -1.
* `C76_joint2_counterexample` – For a contact between two moving bodies `computeDelassusMatrix` returns the matrix of a contact of the first body with the world: on two sliders on top of each other the entry is 1 instead of 2.
* `C76_lower_counterexample` – The blocks below the diagonal are not written, so that what `computeDelassusMatrix` leaves in "the resulting Delassus matrix" (`delassus.hpp:38`) is not symmetric: a zero matrix passed by the caller keeps its zero where the symmetric entry is not zero.
* `C76_universe_counterexample` – `computeDelassusMatrix` on a contact whose first joint is the universe indexes `lambdas_joint1[1]` (`delassus.hxx:213, 231`), a vector of size 1 (`contact-info.hpp:952`): undefined behaviour, on every model, instead of a zero block or an error.
* `C77_armature_counterexample` – **Finding.** The armature of the joint that becomes a mimic joint is lost: with zero scaling left aside, the torque of the followed joint is not the sum of the two torques of the original model when the mimic joint had a rotor.
* `C77_bound_counterexample` – **Finding.** `transformJointIntoMimic` accepts the number of joints as the index of the joint to turn (`<=` instead of `<`, `algorithm/model.hxx:869-874`): the vector of joints is read past its end.
* `C77_chain_counterexample` – **Finding.** A joint that is already followed can be turned into a mimic joint, without any error: here joint 4 follows joint 2, which then follows joint 1, both with scaling 3 and offset 1. Joint 4 then reads the coordinate of joint 1 with its own scaling and offset instead of the composed ones, and its placement is wrong.
* `C78_alone_counterexample` – `algorithm/crba.hxx:147-217`: with two mimic joints on one branch, which follow the same joint, the product of the two is missing from the diagonal of the mass matrix, in both conventions
* `C78_branch_counterexample` – `multibody/data.hxx:228-241`, `algorithm/crba.hxx:171-177`: only the first branch of the subtree of a mimic joint is added to the row of the joint it follows
* `C78_first_counterexample` – `algorithm/crba.hxx:185, 417`: when a mimic joint follows the joint with the first velocity coordinate, the loop over its supports does not stop at the universe, whose `idx_v` is 0 too, and reads `supports` out of range
* `C78_second_call_counterexample` – `algorithm/crba.hxx:166-217, 493-548`: `crba` does not reset `data.M`, to which the mimic joints add. When a mimic joint and the joint it follows are on different branches, a second call on the same `data` counts the mimic joint twice, in both conventions.
* `C78_second_local_counterexample` – `algorithm/crba.hxx:330-336`: in the local convention a mimic joint adds the columns of `Fcrb` to those of its parent, which are not reset. A second call on the same `data` is wrong as soon as a mimic joint carries a joint.
* `C78_single_counterexample` – `algorithm/crba.hxx:189-199, 421-431`: the block `temp_JAG` is not transposed, so that a joint with three degrees of freedom between the followed joint and the mimic joint makes the addition read out of range
* `C78_sub_counterexample` – `multibody/data.hxx:217-226`: when the last joint of a subtree is a mimic joint, `nvSubtree` is wrong and entries of the mass matrix are missing, down to its diagonal, in both conventions
* `C79_desired_counterexample` – `pv` does not read the acceleration `contact_acceleration_desired` of the contact data, which `constraintDynamics` adds to the constraint (`constrained-dynamics.hxx:433-438`): a point asked for the acceleration 1 gets 0.
* `C79_placement_counterexample` – `pv` does not compute the placement `c1Mc2` that the stiffness `Kp` of the corrector multiplies (`pv.hxx:509-527`): on new contact data `Kp` does nothing. A point contact whose body has drifted by 1 m along `x` with `Kp = 1` should have the acceleration -1, and gets 0.
* `C79_sign_counterexample` – "`data.lambdaA[0]` stores the constraint forces" (`pv.hpp:61-62`): it stores minus the forces. A body pushed by 5 along `x` and held by the contact gets 5, where the force of the contact on the body is -5.
* `C79_velocity6_counterexample` – For a `CONTACT_6D` the velocity in the contact data is never written (`pv.hxx:534-545`): `Kd` has no effect, whatever the model, the velocity and the number of calls.
* `C79_velocity_counterexample` – `pv` reads the velocity of a contact from the contact data before it writes it (`pv.hxx:493-506, 536`): on new contact data the damping `Kd` of the corrector does nothing. A point that moves at 1 m/s with `Kd = 1` should have the acceleration -1, and gets 0; the call after that, on the same contact data, gives -1.
* `C80_accumulate_counterexample` – `constrainedABA` adds to `data.lambdaA[0]` and never sets it to zero (`pv.hxx:790`; only `initPvSolver` does): from the second call on, "`data.lambdaA[0]` stores the constraint forces" (`pv.hpp:109-110`) fails. Here the second call converges, with the acceleration and the residual zero; the torque is 35/2 and that of gravity 10, so that the contact takes 15/2, and `data.lambdaA[0]` is -5/2.
* `C80_after_pv_counterexample` – `constrainedABA` uses all the columns of `KA` of a joint with a contact (`pv.hxx:752-755`), also those of the contacts on its descendants, which `pv` leaves there: after a call to `pv` on the same data, `constrainedABA` solves another system. Contacts on a slider and on the slider that it carries, torque 15 on the first one, `max_iter = 1`: the acceleration is 15/4 after `initPvSolver`, and 3 after `initPvSolver` and `pv` (with any settings; here `max_iter = 0`).
* `C80_first_step_counterexample` – After `initPvSolver` on new data, `data.a` is zero and that residual is the gravity, not an error of the contact: the first step can go away from the solution. The acceleration of the held point is 5/2 with `max_iter = 1` and 15/2 with `max_iter = 2`.
* `C80_history_counterexample` – `constrainedABA` computes the first residual before the accelerations (`pv.hxx:768-785`), from the `data.a` that the call before it left: two equal calls give different accelerations, here 15/2 and -5/4.
* `C80_residual_counterexample` – With `max_iter = 1` the loop that writes `settings.absolute_residual` does not run (`pv.hxx:787, 836`): the reported residual is that of an earlier call, here zero for a contact with the acceleration 5/2.
* `C81_drift_counterexample` – `contactABA` subtracts `mu * contact1_acceleration_drift` from the force of a contact (`constrained-dynamics.hxx:833-843`), although the penalty acts on the full acceleration of the body, which has the bias already: the bias counts twice. The acceleration converges to the solution, but `contact_force` to the multiplier minus `mu` times the bias (`C81_solution`). Here the point has its desired acceleration without a contact, so that no force acts: with `contact_force` zero the first turn already leaves that acceleration (the residual is 1/4); converged, with residual zero and the right accelerations, `contact_force` is -1 along `y`.
* `C81_iter_counterexample` – `settings.iter` is always 0 after `contactABA`: the counter of the loop hides the variable that is reported (`constrained-dynamics.hxx:868-869, 964`). Here two turns change the acceleration from -5 to -5/4.
* `C81_residual_counterexample` – When `contactABA` stops on `max_iter`, the reported residual is that of the acceleration before the last turn, and 0 with `max_iter = 0`, although the held point has the acceleration -5.
* `C81_sign_counterexample` – `contact_force` of `contactABA` is minus the force on the body: against gravity -10 it is -10, where `constraintDynamics` writes +10.
* `C81_two_on_joint_counterexample` – Two contacts on one joint: `contactABA` assigns the force of a contact to the joint (`constrained-dynamics.hxx:833, 933`) where it should add, so that only the last contact of a joint acts. Gravity -10 needs the multipliers to add up to -10; with -10 in the first contact the body still falls, and the converged state has -10 in both.
* `C82_reinit_counterexample` – `initPvDelassus` (`delassus.hxx:290-368`) clears the sizes but not `accumulation_joints`: a second call on the same data, for the same contacts, lists each accumulation joint twice, and `computePvDelassusMatrix` then adds the terms of the ancestors twice. The first entry is 12/43 instead of 6/43.
* `C83_act_force_in_place_counterexample` – `motionSet::act(V, f, V)` is wrong: the moment is computed from the linear part just written. `+=` and `-=` in place are right.
* `C83_force_motion_in_place_counterexample` – `forceSet::motionAction(v, F, F)` is wrong: the angular part of every column is computed from the linear part just written. `+=` and `-=` in place, and `motionSet::motionAction` in place, are right.
* `C83_forward_overlap_counterexample` – `motionSet::se3Action` from the columns `0 … 1` of a matrix to its columns `1 … 2` acts twice on the first column: the loop reads column 1 after writing it.
* `C83_inertia_in_place_counterexample` – `motionSet::inertiaAction(I, V, V)` is wrong: the rows of the rotational inertia are applied to an angular part already partly overwritten. `+=` and `-=` in place are right.
* `C85_single_counterexample` – With `facet_dims = 1` the first degree of freedom is never the sampled one, whatever the model, and the last one is sampled at two turns: `generateCombination` moves on from the initial zero, which is already a combination.
