# Formal model of spatial-dyn: design

Source: `/repo` (tmigimatsu/spatial-dyn, C++ and Python), read as text. Model and proofs: Lean 4 under
`lean/Verif`. Nothing in `/repo` is built or run.

Layout of `lean/Verif`:

* `Model/` – the code, function by function; each definition cites file and lines in `/repo`.
* `Spec/` – vocabulary for stating the properties, independent of the model's algorithms: world-frame
  recursions, sums over links, derivatives, reference schemes, descriptions of documents.
* `Lemmas/` – helper lemmas.
* `Props/` – the property theorems, named after the property (`C14_…`), with the witnesses that their
  hypotheses can be met (`example`s, or `…_violated` theorems on concrete bodies).

## Trusted base

* **Kernel and axioms.** Lean's kernel. No axioms of our own, no `sorry`, `admit`, `native_decide`,
  `bv_decide`. Axioms per property theorem (all theorems of `MANIFEST.json`): every one depends on
  exactly `propext`, `Classical.choice`, `Quot.sound`, except `C08_joint_name_round_trip` (`propext`,
  `Quot.sound`) and `C08_joint_name_injective` (none). `vcheck` checks this.
* **Translation.** The hand translation of the C++/Python text into Lean definitions.
* **Scalars.** `double` is modelled by the real numbers: rounding, overflow and NaN propagation are not
  modelled, except that C138 and C144 bound what rounding does to poses and dynamics, and except where a property is about NaN/infinity (joint limits, coefficients, JSON of infinite
  numbers), which uses `Dbl` with `nan`, `-inf`, finite, `+inf`.
* **Eigen.** Dense arithmetic, `Isometry3d` and quaternion products compute the exact operation.
  `LDLT::solve` solves the system when the matrix is positive definite (`Lemmas/Ldlt`: `exact_solves`
  proves this of Eigen's algorithm), and is an arbitrary function (`Ext.badSolve`) otherwise;
  `C144_indefinite` shows that Eigen's answer can be wrong for a nonsingular indefinite matrix. A product of matrices whose inner dimensions differ is undefined behaviour.
* **`ctrl_utils`** is not in `/repo`. `PseudoInverse`, `Log`, `LogMapDerivative` are fields of `Ext`;
  `PdControl`, `NearQuaternion` and Eigen's quaternions are fields of `Ctl`. Nothing is assumed about
  them except by hypotheses of a theorem (`Exact`, `Regular`, `LeastSquares`, `Ctl.Law`, `Ext.NearLog`,
  `Ext.NearLog2`, `Ext.TrueLog`, `Ext.Flags`). The last says without formulas that `Log` is the logarithm of the group
  of rigid motions near the identity and `LogMapDerivative` its derivative; it implies the two before it
  (`Lemmas/ExpMap`, `TrueLog`), and a logarithm that satisfies it is constructed (`Lemmas/LogExists`).
  `Signum` and `DoubleCrossMatrix` are defined.
* **qpOASES** (only in builds with `JOINT_LIMITS`) is the parameter `Qp`; theorems about what it finds assume
  `Qp.Exact` (shortest feasible vector, matrix read row by row), which some solver satisfies
  (`Qp.exists_exact`).
* **Parsers.** tinyxml2, nlohmann::json and yaml-cpp are trusted; documents are trees of parsed values.
  Texts of numbers in XML are opaque strings together with the value the parser reads (`XNum`);
  a description carries its numbers as text, value and the fact that the text reads as the value.
* **pybind11** and numpy: which return-value policy a binding has is read off the source; what the policy
  means (reference, copy, conversion of arguments) is taken from pybind11's documentation.
* **Undefined behaviour** (out-of-range index, null cache, wrong matrix shapes, endless recursion) is the
  separate outcome `Out.ub`; a thrown exception is `Out.throws`. Neither is an ordinary value.
* Division by zero is never silently zero: properties that meet it exclude it by hypothesis or state it
  (`C04_zero_mass_undefined`).

## What is modelled

| code | model |
|---|---|
| `eigen/spatial_{motion,force}{,_base}.h`, `spatial_math.h`, `spatial_inertia.h` | `Model/Spatial`: all operators used by the library, component by component; the expression-template machinery is not modelled |
| `structs/joint.{h,cc}` | `Model/Joint`: all setters, types, names, `T_joint`, subspace |
| `structs/rigid_body`, `graphics` | fields only (`Model/Body`, `Model/Document`); names of geometry types |
| `structs/articulated_body.{h,cc}`, `articulated_body_cache.h` | `Model/Body`, `Machine`, `Store`: every public method, the cache with all flags and stored values, copy/move/assignment with shared-nothing stores |
| references returned by the C++ interface | `Model/Refs`: what each points to, reading it later, dangling after `AddRigidBody` |
| `structs/options.{h,cc}` | `Model/Options` (conversions, defaults) |
| `algorithms/forward_kinematics` | `Model/Kinematics`: positions, orientations, poses, Jacobians, Hessian |
| `algorithms/inverse_dynamics` | `Model/Dynamics`: RNEA with both code paths, Coriolis, gravity, friction, external torques, CRBA, composite inertia |
| `algorithms/forward_dynamics` | `Model/ForwardDynamics`, `InertiaInverseAba` |
| `algorithms/opspace_dynamics{,_aba}` | `Model/Opspace` |
| `algorithms/dynamics_derivatives` | `Model/Derivatives` |
| `algorithms/discrete_dynamics` | `Model/Discrete` |
| `algorithms/simulation` | `Model/Simulation` (all three methods), `Model/JointLimits` (the same in a build that defines `JOINT_LIMITS`, which no file of the repository does) |
| `algorithms/inverse_kinematics` | `Model/Control`, with the process-wide static variable as state |
| `parsers/json`, `parsers/yaml`, pickling in `python/spatial_dyn.cc` | `Model/Document` |
| `parsers/urdf` | `Model/Urdf` |
| `python/spatial_dyn.cc` (controller, keyword arguments), `spatialdyn/*.py` | `Model/Control`, `Model/Options` |
| `python/spatial_dyn.cc` (kinematic functions with optional `q`, `hessian`); sizes of the vector arguments of all algorithms | `Model/Vectors` |
| `python/spatial_dyn.cc` (attributes of bodies, links, joints, inertias and loads; what is a reference and what a copy) | `Model/PyObjects`: assignments to handed-out objects, variables, lifetimes |
| `python/spatial_dyn.cc` (`opspace.inverse_dynamics`) | `Model/PyOpspace`: kinds of objects for `N`, conversion copies |
| `apps/opspace/opspace.py` | `Model/PyApp` |
| `apps/opspace/python/spatial_dyn_opspace.py` | `Model/PySim`: names of the submodule, cycle, loop, program; the registration for the web page is left out |
| `apps/redisgl/redisgl.py` | `Model/Redisgl`: descriptions, dictionaries, keys, default objects; Redis is a map of texts and sets |
| `apps/redisgl/main.py` | `Model/RedisglApp`: the program; command line and connection left out |
| `src/parsers/json.cc`, `src/parsers/yaml.cc` into an existing body | `Model/DocumentState`: the readers with the state after an exception |
| `src/matlab/*.cc` | `Model/Matlab`: argument checks, named arguments, the loops over columns, the output arrays |
| `src/matlab/load_model.cc`, `delete_articulated_body.cc`, `matlab/+spatialdyn/*.m` | `Model/MatlabSession`: variables, addresses, the heap with an arbitrary allocator |
| `apps/opspace/src/main.cc` | `Model/App`: start, one cycle of the loop, runs; Redis, timer and web page are the inputs of a cycle |
| order of the reads and writes of members in the calls | `Model/Memory`; spelled out for the setters, kinematics, RNEA, CRBA, ABA and `opspace_dynamics`; the derivatives, the discrete and the ABA operational-space functions, integrators and `AddRigidBody` access every member (`whole`) |
| `set_T_to_parent(ori, pos)`, `set_T_base_to_world(ori, pos)`, quaternions answered by `Orientation` | `Model/Quaternion` (Eigen's `toRotationMatrix`, `Quaterniond(Matrix3d)`, product and inverse are transcribed from the external library; elsewhere in the model orientations are rotation matrices) |
| `operator<<` of joints, links and robots, `__repr__` in `python/spatial_dyn.cc` | `Model/Print`; the text of a `double` is a parameter, `__repr__` of inertias is left out |
| `python/eigen.cc` | `Model/PyEigen`; Eigen's constructors and `inverse` and pybind11's shared arrays are transcribed |
| rounding in `T_to_world` and `Position` | `Model/Rounding`: the same loops over an arbitrary arithmetic |
| rounding in inverse and forward dynamics, inertia, Jacobians and `Integrate` | `Model/RoundDynamics`: the same loops over an arbitrary arithmetic, and Eigen's `LDLT` (`ldlt_inplace::unblocked` and `solve`, from `LDLT.h`) column by column with the order of rows and of sums left open; no friction, joint limits or caches |

Not modelled: expression templates and assertion macros of the Eigen plug-in headers, `python/spatialdyn.py` (documentation stubs with empty bodies), `src/main.cc`,
tests, documentation, timing, floating-point error (except of poses, C138, and dynamics, C144). Of threads only the
members of bodies are modelled: the process-wide variable of `InverseKinematics` (`inverse_kinematics.cc:82`) and scratch
vectors of the ABA operational-space functions are left out, so that these functions may race where C130 makes no claim.

### Modelling choices and simplifications

* Loops are folds over `List.range n` (or its reverse) that update arrays; arrays are functions of the
  index. Vectors handed to functions (`tau`, `ddq`) are functions of the index; their sizes are tracked
  only where the code checks or multiplies them (`set_q`, Jacobians, nullspace matrices, posture goals).
* The articulated body with its `mutable` cache is a record; every API call is an `Op`; histories are
  lists of calls (`Reach`, `Careful`, `DReach`). Cache contents of a new body are arbitrary (uninitialised).
* `Op.exec` leaves the body as it was when a call throws. The one function that can throw after filling
  caches (`opspace::InverseDynamics` with `centrifugal_coriolis` and a Jacobian without six rows) leaves
  caches filled but coherent; that difference is not observable.
* Queries of the model return values. The references C++ returns are `Model/Refs`: each names the storage it
  points to and reads what is there later (C104). Inside the library no function keeps a reference to a result
  over a call that overwrites it.
* Evaluation order of the two factors of a C++ product is unspecified; where both call the library,
  neither reads what the other writes (noted at the definition).
* `Op.Safe` (in `Reach`) excludes the calls for which C14 is false: moving the base after a query (C15),
  articulated-body operational-space calls on bodies with loads (C54), invalid (non-rigid) transforms.
* `InverseKinematics` works on a copy of the body; the loop has the fuel `kMaxIterations` of the code.
* URDF: the depth-first recursion has fuel equal to the number of links, proved sufficient for non-empty
  names; with an empty root name it does not end for any fuel (`C69_violated_empty_name`). Masses and
  shapes that are not finite are outside the model (`ub`), positive total mass of merged links is assumed.
* Discrete integration: a step returning to exactly the same state keeps the stale "previous" frames in
  C++; such steps are excluded (`Op.Tracked`).

## Per property: what is modelled and how it is proved

Status as in `MANIFEST.json`. "partial" means that the property as stated is false of the code (a
`…_violated` theorem gives the witness and `…_partial` the part that holds), unless said otherwise.

| id | model and proof |
|---|---|
| C01–C05 | component definitions of the spatial operators; algebraic laws for all reals, positivity as sums of squares |
| C06 | `T_joint` with `Real.sin/cos`; group law by addition formulas; derivative with `HasDerivAt` |
| C07 | joint record over extended doubles, setters as an inductive type; invariant by induction on histories; NaN witness |
| C08, C59 | names as character lists; case analysis, lower-casing character by character |
| C09–C13, C49 | state machine of the body; tree invariant (`Inv.tree`) by induction on histories; refinement of loads to a map |
| C14 | coherence invariant between flags, stored arrays and a world-frame specification, kept by every call; then every query is a function of the observable state |
| C15 | partial: witness with stale world transforms; holds if no query came before |
| C16, C50 | store of bodies with pointers; independence by induction; partial: `inertia_base_` not copied |
| C17–C20 | poses by recursion on the parent; Jacobian loops by fold lemmas; derivatives with `HasDerivAt` along trajectories; C17 partial: `T_to_world(i, q)` uses uninitialised memory |
| C21 | derivative of Jacobian columns; partial: angular part wrong above the diagonal |
| C22–C28 | one virtual-work lemma (forward motion recursion paired with backward force recursion) and consequences; C24 from kinetic energy; C26 derivative of energy along solutions |
| C73–C75 | derivative of Jacobians and link inertias along trajectories (Lemmas/Lagrange): momentum rate and kinetic-energy gradient differ by the inverse-dynamics torque; Christoffel form from the polarised derivative of the mass matrix |
| C76 | two reachable bodies related by a rigid motion of the base: world-frame specification is equivariant, joint-space quantities invariant |
| C29 | from C23 and definiteness |
| C30, C31 | articulated-body recursion as elimination, by induction over the reversed order; partial: gravity with a turned base, cross-branch blocks |
| C32, C52, C55 | friction case analysis over the reals; partial: stiction can drive a moving joint, ABA ignores gravity, missing viscous term; what friction in the ABA amounts to by comparing two runs of the backward pass (`Props/FrictionAba`) |
| C33, C34 | `Integrate` refines the textbook schemes (`Spec/Scheme`), limits as a filter after every stage |
| C78 | the vector field of the equations of motion in closed form is smooth (`Lemmas/Smooth`, `Field`); uniqueness by Gronwall; existence for all times: kinetic energy plus squared positions grows at most exponentially (`Lemmas/Growth`: every joint rate is bounded by the energy uniformly over configurations) and has bounded sublevel sets, Picard–Lindelöf for the field cut off outside one (`Lemmas/OdeGlobal`) |
| C79 | consistency orders of the three methods from Taylor expansion along the motion (`Lemmas/OneStep`, `RungeKutta`), convergence by the discrete Gronwall argument (`Lemmas/Converge`), carried to repeated calls of the model's `Integrate` |
| C80 | total energy is constant along motions (`Lemmas/Drift`) and Lipschitz near them, then C79 |
| C35–C37, C67 | matrix algebra of projectors; task priorities by induction on the task list; C37 partial: stale `J_bar` for another tolerance |
| C38, C39, C53, C54 | unit-force propagation through the articulated recursion; partial: offset, loads, cache |
| C40, C41 | derivative recursions compared with `HasDerivAt`; C41 partial: undefined unless all links are roots |
| C42, C56, C57 | discrete Euler–Lagrange residual against a specification over whole links; step equation, consecutive steps, iteration budget; partial: loads, budgets |
| C43 | loop invariant of the iteration; partial: link argument ignored for orientation, static identity |
| C44, C45, C58, C60 | encode/decode of document trees, induction over the list of links; partial: YAML ids, infinite limits, append on read |
| C77 | inversion of the readers: from a successful read, what each entry says (Spec/Accept) and that the result is well-formed; refusals follow. Assumes only that the external conversion of isometries returns rigid transforms |
| C46, C47, C69–C71 | URDF description (`Spec/Urdf.Robot`) printed to XML with arbitrary additional content; topological sort, merging of fixed joints and depth-first numbering proved for every description; partial: forests, single links, tensor rotation direction, axes, materials, missing inertial, malformed files with undefined behaviour |
| C48, C61, C62 | option conversions, keyword arguments; partial: defaults differ |
| C51, C63, C64, C66, C72 | controller as composition of modelled calls; torques through the dynamics give the control law; posture as least squares (C72); partial: truthy status, task frame mixing |
| C65 | joint-space controller |
| C81 | the closed loop is linear up to the velocity products, which are homogeneous of degree two in the rates (`Lemmas/Loop`); quadratic Lyapunov function, exponential decay and existence for all times near the goal (`Lemmas/Lyapunov`); carried to the model's controller and forward dynamics (`Lemmas/LoopCode`) |
| C82 | one call is a Runge–Kutta step with the torques frozen at its beginning, consistent with the closed loop uniformly near the goal (`Lemmas/Frozen`); the Lyapunov function decreases geometrically over the calls, by induction |
| C83 | invariant of the loop over columns (only the state changes, C14 for each column); arrays addressed by index lists (`Spec/Matlab`) |
| C84 | list of named arguments as an inductive relation (`Asks`); partial: ignored by one function |
| C85 | invariant of the loop: the history fixes no previous configuration but `q - dt dq`; then C42 |
| C86, C87 | decision logic; partial: out-of-range reads |
| C88 | algebraic law (the displacement of a link composed with its pose; the axis of a joint on the base is constant), then induction on the number of steps |
| C89 | algebraic law: forces of the program through C27 and C42 |
| C90 | totality of a cycle (each call of it keeps the invariant of C14), induction on the cycles; partial: missing fields and links |
| C91 | induction on the cycles against a count of keys |
| C92 | invariant of the loop (resting at the goals, discrete past at rest), C42_rest; what the first cycle starts from (C92_start) |
| C93 | refinement: sessions with addresses refine a world of references (`Rep`), for every allocator; the converse with an allocator that never reuses addresses; the state set by a call stays (`C93_remembers`, from C83) |
| C94 | decision logic and counting on the same refinement; partial: dangling addresses, leaks |
| C95 | the controller's torques are, near the goal, a smooth function of the state (`Lemmas/TaskCode`, `TaskPlant`); the linear part of the closed loop is a cascade, error dynamics in the task directions and posture dynamics in the rest, with a common quadratic Lyapunov function (`Lemmas/Cascade`, `TaskLoop`); decay and existence as for C81 for any smooth steering law (`Lemmas/Steer`, `TaskSteer`). The orientation error of `ctrl_utils` enters through its first-order behaviour only (`Ctl.Tracks`) |
| C96 | one call is a Runge–Kutta step with frozen torques; induction over the calls as for C82, status bits through C51 |
| C97 | machine of C14 extended by assignments (`PyOp`); the coherence invariant is kept by assignments made while nothing is cached, and re-established by `set_q`; partial: nothing is invalidated otherwise |
| C98 | invariant on links by induction over programs; decision logic for rejections; partial: the mass attribute |
| C99 | programs with variables (`PyStmt`), blocks of memory with birth numbers; induction over programs; the standard library decides arbitrarily when the vector moves |
| C100 | decision logic for the kind of `N`, reduction of stacks of calls to the C++ stacks of C36; partial: converted objects |
| C101 | C51 for the status word, C66 for totality; partial: the program stops at any set bit |
| C102 | a loaded body meets the conditions of C44 and C58 (`Lemmas/UrdfProper`); partial: the text form with unbounded joints |
| C103 | every kept link contains the positive-definite tensor of its own link (`Robot.loaded_inertia`), then C21; partial: unmerged fixed joints |
| C104 | flags that are set stay set, with the stored value, through every query (`Query.run_kept`), tasks and points compared separately (`HeldOps`, `HeldAba`, `HeldJac`), induction over the queries; partial: two Jacobians or tasks |
| C105 | both bodies are reduced to the same system with each load merged into its link (`Sys.merge`); the queries depend on the merged system only; partial: articulated-body operational-space inertia |
| C106 | a map of links that keeps parents, poses, joints and inertias, and whose image is closed under descendants (`Body.Embeds`), carries every ancestor sum to the other body (`Sys.Emb`); accelerations by uniqueness of the solution |
| C107 | every sum of the world-frame specification is homogeneous in masses, velocities and gravity (`Sys.Resc`); accelerations by uniqueness; reversal with the factor -1 and the chain rule |
| C108 | refinement of the database to a registry by namespace and name, induction over the calls; keys cut at their first colon (`split_colon`); partial: namespaces with a colon |
| C109 | the dictionary of every picture is decoded step by step; robots by C58; partial: infinite limits, `Pose.from_dict` |
| C110 | the default objects are unchanged by programs that do not assign to them (invariant); partial: in-place changes |
| C111 | the four functions read nothing of the loads once the dynamics caches are cleared; with cached articulated inertias the pass uses those (with loads) |
| C112 | the generalised discrete momentum has the inertia as strict derivative at zero displacement (`Lemmas/NearLog`, `RootFind`); hence each correction is a contraction with ratio as small as wanted, uniformly on compact sets (`Lemmas/Newton`). Assumption on the external logarithm: `Ext.NearLog` (`Spec/NearLog`), which every logarithm in the sense of `Ext.TrueLog` meets (`C112_true_converges`, `C112_true_step`) |
| C113 | the momenta of the discrete equations are expanded to second order in the step, uniformly on compact sets (`Lemmas/Peano`, `Expand`, `StepExpand`, `LogStep`): first order is the inertia times the change of rate, second order the velocity products; hence a step is an Euler step up to `C (tol + dt²)` (`Lemmas/LocalStep`, `Track`), and discrete Gronwall with C112 for the root finding. Assumption on the external logarithm: `Ext.NearLog2`, which every logarithm in the sense of `Ext.TrueLog` meets (`C113_true_log`) |
| C114 | the action of a path is defined on its own (`Spec/DiscreteAction`); derivatives of the kinetic energy of a displacement in its two ends by the chain rule through `Ext.TrueLog.log_rate` (`Lemmas/DiscreteAction`), the potential by C25; runs by locality of the sum, moves of links bounded by moves of joints on compact sets; `C114_motion` applies it to the runs of C113 |
| C115 | C113 with the conservation of energy along motions (C80) and a Lipschitz bound of the energy on a compact set |
| C116 | `Model/JointLimits`: the list of joints at limits, the accelerations by unit torques, the constraint matrix as the array the solver reads (column-major memory read row by row), the solver as a parameter. The matrix of the responses is symmetric positive definite, so with limits on one side the transposition is invisible and the program is feasible; the minimiser is zero when zero is feasible. Violations: null pointer in Euler, opposite limits, stops that pull; each for every body with the coupling, and on two sliders in line |
| C117 | orientations do not change when joints slide, so axes in world coordinates, inertias about moving origins and the weight are constant and velocity products vanish (`Lemmas/Sliding`); the vector field is then constant in position and velocity, and each of the schemes is exact on it; induction on the calls |
| C118 | the six-row Jacobian is singular (angular rows are zero), so every iteration takes the position branch of the law (C43); on a sliding robot the law and one step of `Integrate` give an exact linear recursion for the error and the velocity of the point, which shrinks the larger of |e| and |v + 10 e| by 0.99104 per coordinate; induction along `IkRun`. Orientation never changes, so a goal with another orientation is never met and the loop runs to its bound |
| C119 | torques of `InverseDynamics` put into `ForwardDynamics` give back the accelerations (C29) in every state of the run (`AtState.torque`); Euler's step is then the update of a double integrator (`C119_cycles`, induction over cycles). The error obeys a linear recursion of second order, which tends to zero from every start exactly under Jury's conditions (`Lemmas/Jury`: complex, double and distinct real roots; for the converse an eigenvector to a root outside the disc) |
| C120 | C117 makes the field of a step constant, so Runge-Kutta with held torques equals the update of C119 (`slide_callMap`); then as C119 |
| C121 | composition of C46/C70/C102 (what is loaded) with the entries written, keys kept apart by their ends and their first colon; partial: unbounded joints, names with colons |
| C122 | `Model/DocumentState`: the readers with the state after an exception; simulation of each statement by a shorter document, then C77; refused documents leave what was read (violated) |
| C123 | `Spec/LeastConstraint` (function of Gibbs and Appell over the link accelerations of `Spec/Mechanics`); expand around the answer, linear term by C22 and C29, quadratic term is the inertia form (C24) |
| C124 | orthogonality in the metric of the inertia: torques through `Jᵀ` (or the projected Jacobians, induction over the stack) do no power on differences that the tasks do not see |
| C125 | test motion against the equations of motion; symmetry and definiteness of `Inertia` (C24) |
| C126 | kinetic energy link by link, load merged by C04; minimum principle for the response and for the task inertia (C124) |
| C127 | `Model/Vectors`: vector arguments as lists of any length, element reads checked, vector arithmetic requires equal sizes (Release build: no assertions); loops depend only on the entries they read (`fwdLoop_steps`, `bwdLoop_steps`) |
| C128 | `Model/Vectors`: dispatch on `q`, strided numpy array over the column-major memory of the tensor |
| C129 | `Spec/Circulation`: momenta as derivatives of the action of a step, circulation as an integral around the loop; the action along two curves has a rate linear in their rates with continuous coefficients (`action_curve`, from the estimates of the logarithm), integrates to zero around a loop, and C114 links the coefficients of consecutive steps; induction on the steps |
| C130 | `Model/Memory`: each call as a program of reads and writes of members in the order of the code; refinement to the model of the calls (`run_op`); `Spec/Threads`: interleavings, data races, threads; ownership argument over all interleavings (`interleave`), queries made before write nothing (`Ready.warm`); races constructed by running one thread to a write and the other to an access |
| C131 | `Model/Quaternion`: the setters with an orientation, `Orientation` with Eigen's conversions written out; all ten products of the entries of the answered quaternion (`ofRot_table`), reference is `q v q*` in Mathlib's quaternions; no continuous choice of quaternions on a full turn (`no_lift`, a continuous function with square one is constant) |
| C132 | fixed tolerance, step to zero: the defect of the guess is below the tolerance for short steps (`guess_defect`), so that a step is `v' = (v + v_before)/2 + dt a`; error recursion for that two-step scheme with the curve of `2/3` of the accelerations (`Guess.follow`), existence of the curve by Picard–Lindelöf; the two curves separate because their initial accelerations differ |
| C133 | relation `Body.Welds` between an unmerged and a merged body (links, parts, poses of the parts, momenta); closed formulas of the two agree by regrouping the sums over links by carrier; the two results of `loadModel` are related by it, from `LoadedAs` (C46) with and without merging |
| C134 | `Similarity` (scaling and reversal of axes) acting on vectors, motions, forces, poses and inertias; relation `Similar` between bodies; the closed formulas commute with it, by induction over links for poses; solutions by uniqueness, Runge-Kutta steps because the action on states is linear |
| C135 | `FullTurns` between position lists; joint transforms are periodic, so the bodies agree in every pose (`PoseEq`), and answers depend on the positions through poses only; Runge-Kutta steps commute with shifts that the field does not see |
| C136 | `stride` of a link; triangle inequality along the chain to the base by induction over links; columns of the Jacobian by the cross product bound |
| C137 | ten parameters of an inertia as a vector; momentum is linear in them, the closed formulas are linear in momenta, and everything else in them depends on the geometry and state only |
| C138 | the pose functions over an arbitrary arithmetic; induction over the chain with the rotation and translation errors kept as powers of `1 + 6 u`; operations with a unit of roundoff, and rounding to `n` binary digits, as instances |
| C139 | zeros of the equations of motion are fixed points of every method, conversely by the limit of short steps; Lagrange-Dirichlet with the conserved energy less the work of the torques on a compact sphere; the simulation by C79 |
| C140 | friction moved to the torque side gives the frictionless field of C78 at each instant; right derivatives and the mean value inequality for them; stability from the energy as in C139; the violation from the constant velocity field of a sliding robot whose stiction exceeds the net torque |
| C141 | texts cut at the last quote and the first commas; lines of the output by splitting at line breaks |
| C142 | transforms as 4x4 matrices; adjugate and determinant of orthogonal matrices for the exact condition |
| C143 | viscous friction as torques against the velocities, so the vector field is smooth and C78, C79 carry over; coming to rest by the energy as Lyapunov function and Barbalat's lemma, with uniform bounds from periodicity in the angles |
| C144 | the algorithms over an arbitrary arithmetic; every operation keeps "bounded, and right up to K u for u below u0", uniformly over a set of states, so induction over the loops gives each result; divisions because the divisors of the articulated body algorithm have a positive lower bound over all states; solutions of systems because the mass matrices of all bounded states are positive definite by one margin (joint rates are bounded by the kinetic energy), so the pivots of the factorisation are at least that margin for every order of the rows (each is a value of the quadratic form), and finitely many orders are possible; simulations by induction over the steps; long ones by adding up the error of one step, K u for all bounded states and steps up to 1, along the motion |
| C145 | convergence of one-step methods with errors at the start and in each step (`Lemmas/Perturb`), applied to the motion and, by C107, to the motion run backwards |
| C146 | the accelerations are smooth in torques and state together, so the increments of all methods are; a step from the motion is off by a multiple of dt^2 because motion and torques are Lipschitz, and the errors add up as in C79 (`Lemmas/Hold`). References by C29 and smoothness of the equations of motion; torques computed from the state before each call (`Spec/Feedback`) make one-step maps of the same kind |
| C147 | the response of fewer free joints is the projection, in the metric of the inertia, of the response of more (`raised_form`), so the difference of the two has a form that is nonnegative; held joints exist because a definite matrix with rows replaced by unit rows is definite |
| C148 | the cycle is modelled with the names of the submodule as a parameter; with the real ones `near_quaternion` is not found after the position is read, whatever was read; with the two functions, each call succeeds, and at rest the torques are those of gravity (`App.AtGoal` is an invariant, C139_rests) |
| C149 | the answers are continuous in the state and repeat with full turns (C135), so that they are bounded on a compact set; homogeneity gives the multiples of the squares, and the smallest value of the inertia on the unit sphere the lower bound; for a turntable with a radial slider the inertia is 2 + r² (C149_slides); the bounds of a form are those of its inverse, inverted, which gives the task's inverse inertia (C149_opspace) |
| C150 | the rate of the kinetic energy is the power of torques, gravity and forces, which C149's bounds make at most a multiple of the root of the energy; so the root grows at most linearly; the simulation follows by convergence (C79) |
| C151 | as C150; friction takes from the energy at least a multiple of itself, so that its root, less a constant, fades exponentially |
| C152 | the answers are smooth and repeat with full turns, so that their derivatives are bounded on a compact set; for the accelerations, the difference of two answers solves the equations of one state with a small right-hand side, and C149's lower bound of the inertia applies; for a turntable with a radial slider the inertia 2 + r² is the counterexample; viscous friction is a torque that depends linearly on the velocities (C152_viscous), Coulomb friction jumps at the threshold (C152_coulomb) |
| C153 | at rest the accelerations vanish exactly if the torques are those of gravity; the constants of C152 (change of gravity) and C149 (size of gravity) give the gains and the distance; a resting position is a minimum of the potential energy plus that of the springs, which exists because the first is bounded |
| C154 | the energy of the robot and of the springs falls at the power of the dampers and bounds the states; Barbalat's lemma gives the limits, the change of gravity (C152) the goal; motions as in C146, with torques that depend on the state; the simulation by the convergence of calls with a feedback law (C146) |
| C155 | as C154 with the kinetic energy and that of the springs, which bound the states of every robot; the simulation by C146; viscous friction by rewriting the motion as one without friction under less torque |
| C156 | the torques of InverseDynamics give the wanted accelerations (C119), so every joint's error is a damped oscillator; a quadratic form with a mixed term decays at a rate given by the gains; the simulation by C146; errors of the torques enter through the least inertia (C149) |
| C68 | velocity-product compensation; partial: spatial instead of classical bias, option misrouting |

## Findings: where the code does not do what a user would expect

Each is proved about the model (theorem in brackets) or noted as outside it.

1. `set_T_base_to_world` does not clear caches: later queries answer for the old base [C15_violated].
2. The copy constructor and assignment do not copy `inertia_base_` [C16_violated].
3. `T_to_world(i, q)` (and `CartesianPose(q, …)`) multiplies an uninitialised transform into its answer
   [C17_violated].
4. The operational-space ABA functions ignore loads and share the articulated-inertia cache with
   functions that do not [C38_loads_violated, C54_violated; exactly when they count: C111]; the offset is not applied
   [C38_offset_violated, C53_violated].
5. `GravityAba` depends on the cache left by earlier calls [C39_violated].
6. `ForwardDynamicsAba` applies gravity at roots in the wrong frame when the base is turned [C30_violated].
7. `InertiaInverseAba` has entries between branches that depend on uninitialised memory [C31_violated].
8. `JacobianDynamicInverse` answers with the inverse of another tolerance [C37_stale_jbar].
9. `opspace::InverseDynamics` hands `svd_epsilon` to the link index of `CentrifugalCoriolis` and
   `stiction_epsilon` to the `compensate` flag of `Friction` [C68_violated_stiction].
10. `InverseKinematics` keeps a static identity of the first body's size and compares the orientation of
    the last link whatever link is asked for [C43_violated_static, C43_violated_link].
11. Friction can drive a moving joint instead of braking it [C32_violated]; in the articulated-body version
    static friction is decided without gravity [C52_aba_violated]. A joint with stiction but no Coulomb
    friction, as URDF's `friction` attribute makes it, moves at constant speed against gravity forever
    [C140_violated, C140_violated_witness].
12. The angular part of `Hessian` is symmetric, the true derivative is not [C21_angular_violated].
13. Adding inertias of total mass zero divides by zero [C04_zero_mass_undefined].
14. Joint setters accept NaN [C07_nan_breaks_limits].
15. YAML does not read back where links hang [C45_violated]; `from_json` appends
    [C60_violated]; the state is not saved [C44_state_not_saved]; pickles of infinite limits cannot be
    read [C58_violated].
16. URDF: other trees of the file are dropped and single links refused [C46_violated_*]; the inertia tensor
    is rotated the wrong way [C47_violated_tensor]; axes that are not coordinate axes become x
    [C47_violated_axis]; rings, joints without child and empty names are undefined behaviour, unknown
    joint types vanish, limits that are not numbers are left out [C69_violated_*]; materials are looked up in the wrong element
    [C70_violated_material]; a link without inertial gets 1 kg [C71_violated_bare].
17. Discrete dynamics ignore loads [C56_violated]; with no iterations allowed the velocity comes from
    unwritten memory, and a step stopped before convergence records a wrong previous configuration
    [C57_no_iterations_violated, C57_stopped_violated].
18. `InverseDynamicsPositionDerivative` adds matrices of different sizes as soon as a link has a parent
    [C41_violated]; `InverseDynamicsVelocityDerivative` ignores viscous friction [C55_violated].
19. Python controller: thresholds left at `None` raise [C51_violated_optional]; the status word is truthy for
    a resting body [C51_violated_truthy]; with a task frame the error is not turned and the point can
    move away from the goal [C64_violated]; `joint_space_control` integrates for non-positive steps
    [C65_step].
20. Default options of forward and inverse dynamics differ [C62_violated].
21. `CentrifugalCoriolis` subtracts the spatial, not the classical, bias acceleration [C68_violated].
22. Index `-dof-1` and the like are out of range, and a load may be added to a link that does not exist
    [C12_out_of_range, C12_load_index].
23. MATLAB: `jacobian_dynamic_inverse` ignores its link and offset [C84_violated, C84_ignored];
    `inverse_kinematics` reads the orientation from the array of the position, beyond its end, and a guess
    that was not given [C86_violated, C86_ignored_violated, C86_guess_violated], and moves the body before it
    refuses [C86_refused_violated]; `centrifugal_coriolis` reads beyond a short `dQ` and never answers with
    the body alone [C87_columns_violated, C87_coriolis_violated]; `jacobian_dynamic_inverse(ab)` writes through
    a map of the wrong size [C87_inverse_violated]; `discrete_inverse_dynamics` asks for three columns in its
    message and accepts two. The handle of a body is a number in a
    value class: a deleted body can be used and deleted again, and bodies are never freed by themselves
    [C94_deleted_violated, C94_reuse_violated, C94_leak_violated].
24. `apps/opspace`: a message of the web page without `key_object`, or about a link that does not exist, is
    undefined behaviour [C90_violated]; a click on the base (link -1) moves nothing but evaluates the last link
    [C89_elsewhere].
25. Python: links, joints and inertias are handed out by reference and can be assigned to, but the body does
    not notice [C97_stale, C97_violated]; a mass can be made negative [C98_mass_violated]; `ab.q` is a view that
    changes later [C99_violated], and a link kept across `add_rigid_body` or a load kept across `clear_load`
    dangles [C99_link_dangling, C99_load_dangling]; `N` passed as an integer array or a list is not updated, so
    later tasks disturb earlier ones [C100_converted, C100_violated], and the empty matrix is refused
    [C100_empty]; the example program stops after its first cycle [C101_violated]; `inertia_inverse` returns a
    type that is not registered, so that every call raises (outside the model).
26. A robot loaded from URDF with a continuous joint, a joint without limits or an unmerged fixed joint cannot be
    unpickled [C102_violated]; with `simplify = false` every fixed joint is a degree of freedom that nothing
    moves, and the joint-space inertia is singular [C103_violated].
27. References to two Jacobians, or to the matrices of two tasks, are the same object: after the second call the
    first reads the second result [C104_violated, C104_violated_task]; references to links, transforms and
    Jacobian rows dangle after `AddRigidBody` [C104_dangling].
28. The articulated-body operational-space inertia of a robot depends on whether weight is in a link or in a
    load [C105_violated].
29. `redisgl`: objects of nested namespaces overwrite and delete each other [C108_violated]; a robot with an
    unbounded joint is published in a form the library cannot read [C109_violated]; `Pose.from_dict` fails on
    what `Pose.to_dict` writes [C109_pose_violated]; pictures made without a pose share it [C110_violated].
    `main.py` writes joint positions over the description of another robot for names with colons [C121_violated].
30. `JOINT_LIMITS` builds (C116): `kEuler` dereferences a null `p_dq_err` (`simulation.cc:126,136`); `A.data()` of a column-major matrix is passed to qpOASES, which reads rows, so with joints at opposite limits the constraints are those of another matrix and a joint can be accelerated outward; the minimum-norm program has no sign constraint on the reactions, so a stop can pull. `nWSR = 10` bounds the work of the solver and its return code is ignored; the theorems assume an exact solver.
31. Reading a JSON or YAML document into an existing body (`json.cc:26-45`, `yaml.cc:28-48`) is not all-or-nothing: the entries and links before the refused one stay (C122_violated). The body is legal all the same (C122_legal), with its old links and state at the same indices (C122_kept).
32. Sizes of vector arguments are not checked except by `set_q` and `set_dq`; whether a too long acceleration vector works in `InverseDynamics` depends on the cache (`C127_history_violated`).
33. Queries that are `const` are not safe to make from several threads: first queries after a change write the cache
    [C130_first_time_violated], Jacobians of two points overwrite each other [C130_jacobian_violated,
    C130_swapped_violated], and `InverseDynamics`, `ForwardDynamics` and `ExternalTorques` write scratch members on
    every call, cached or not [C130_inverseDynamics_violated, C130_forwardDynamics_violated,
    C130_externalTorques_violated].
34. `set_T_to_parent(ori, pos)` and `set_T_base_to_world(ori, pos)` accept quaternions that are not normalised and deform
    the link [C131_shape_violated]; the quaternion of `Orientation` jumps sign on every full turn
    [C131_continuous_violated].
35. `variational_epsilon` (1e-8) is an absolute impulse: for short steps or light bodies `discrete::Integrate` accepts its
    starting guess, and the guesses alone give two thirds of the accelerations, however short the step [C132_violated].
36. Python accepts matrices that are not rigid as `Isometry3d`, and assigning to the arrays it hands out makes
    them so; then `inverse` does not undo them [C142_violated].
37. `apps/opspace/python/spatial_dyn_opspace.py` calls `near_quaternion` and `orientation_error` of the module, which
    are commented out in the bindings: no cycle is ever completed and the robot never moves [C148_violated].
38. Outside the model: the operational-space cache compares only the size of Jacobians before comparing entries (modelled as undefined behaviour); the documented order of
    `I_com_flat` is not the order of the code [C05_flat_order].

## Relation to the tests of the project

`test/tests.cc` checks one robot (six joints, no loads, base at the origin) in one state. Each of its
comparisons is an instance of a theorem; comparisons with the library RBDL are stated against the
world-frame specification (`Spec/World`) instead.

| section of `tests.cc` | theorems |
|---|---|
| spatial vector transforms, spatial inertia | C01, C02, C03 |
| forward_kinematics, jacobian | C17, C18 (the exception `C17_violated` is not tested) |
| inverse dynamics | C22, C23, C27, C32 |
| inertia, inertia inverse | C24, C31 (a chain: `C31_between_branches` is not tested) |
| forward dynamics | C29, C30 (the comparison with friction is commented out in the test) |
| centrifugal coriolis, gravity | C75, C25 |
| operational space | C38, C53, C39, each as the first call at the origin of the link without loads |
| dynamics position derivative | undefined behaviour in the model (`C41_violated`: a matrix and a column of different sizes are added) |
| dynamics velocity derivative | C40 |
| discrete dynamics | prints only; C42, C57, C79, C88 |

## Checking the theorems against wrong programs

`seeded/LOG.jsonl`: every line is one edit of a definition of the model, the claim it breaks, and the
theorems that then fail. Edits that left everything provable led to tightened statements (field
`tightened`).
