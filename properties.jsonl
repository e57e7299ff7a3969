{"id": "C01", "title": "Spatial transforms act as a group", "statement": "Transforming a spatial motion, a spatial force or a spatial inertia by T1*T2 equals transforming by T2 and then by T1; transforming by T and then by T.inverse() gives the original back; the identity transform changes nothing.", "quantifier": "every pair of rigid transforms (rotation + translation), every motion, force and inertia", "why_tests_cant": "the claim is an identity over a continuum of transforms; a test samples finitely many", "anchors": ["include/spatial_dyn/eigen/spatial_motion_base.h (operator* on Transform/Translation)", "include/spatial_dyn/eigen/spatial_force_base.h (operator*)", "include/spatial_dyn/eigen/spatial_inertia.h (operator*(Transform, SpatialInertia))"]}
{"id": "C02", "title": "Power is frame independent", "statement": "dot(T*m, T*f) = dot(m, f); T*(m1 x m2) = (T*m1) x (T*m2) and T*(m x f) = (T*m) x (T*f); dot(m1 x m2, f) = -dot(m2, m1 x f); motion x motion is antisymmetric and satisfies the Jacobi identity.", "quantifier": "every rigid transform, every pair/triple of motions and every force", "why_tests_cant": "algebraic laws over all real inputs", "anchors": ["include/spatial_dyn/eigen/spatial_motion_base.h (cross, dot)", "include/spatial_dyn/eigen/spatial_force_base.h (dot)"]}
{"id": "C03", "title": "Spatial inertia is a symmetric positive semidefinite operator", "statement": "dot(m1, I*m2) = dot(m2, I*m1) when the rotational inertia is symmetric; dot(m, I*m) >= 0 when mass >= 0 and the rotational inertia is positive semidefinite; (T*I)*(T*m) = T*(I*m); for a symmetric rotational inertia I*m equals the 6x6 matrix() applied to m, and for others it need not.", "quantifier": "every inertia, motion and rigid transform", "why_tests_cant": "universally quantified over real parameters", "anchors": ["include/spatial_dyn/eigen/spatial_inertia.h (SpatialInertia, matrix, operator*)"]}
{"id": "C04", "title": "Adding inertias adds their action", "statement": "(I1 + I2)*m = I1*m + I2*m for all motions m, whatever order bodies are merged in, provided the total mass is nonzero; with total mass zero the combined centre of mass is a division by zero.", "quantifier": "every pair of inertias with nonzero total mass, every motion", "why_tests_cant": "the identity is nonlinear in masses and centres of mass; the zero-mass corner is a measure-zero case random tests do not hit", "anchors": ["include/spatial_dyn/eigen/spatial_inertia.h (operator+, operator+=)"]}
{"id": "C05", "title": "SpatialInertia flat and pickle round trip", "statement": "Rebuilding an inertia from (mass, com, I_com_flat()) gives back the same inertia whenever its rotational inertia is symmetric; the flat order is xx,yy,zz,xy,xz,yz in both directions.", "quantifier": "every inertia with symmetric I_com", "why_tests_cant": "all real entries; an order mix-up between off-diagonal terms is invisible on diagonal test data", "anchors": ["include/spatial_dyn/eigen/spatial_inertia.h (ctor, I_com_flat)", "src/python/spatial_dyn.cc (SpatialInertiad pickle)"]}
{"id": "C06", "title": "Joint transforms form a one-parameter group generated by the joint axis", "statement": "For each joint type T_joint(0) is the identity, T_joint(a)*T_joint(b) = T_joint(a+b), T_joint(q) is a proper rigid transform, and its derivative in q is the motion subspace acting on the transform.", "quantifier": "every joint type, all real joint positions", "why_tests_cant": "needs a limit (derivative) and all real angles", "anchors": ["src/structs/joint.cc (T_joint, set_type, subspace)"]}
{"id": "C07", "title": "Joint limits stay ordered", "statement": "After any sequence of set_q_min, set_q_max, set_q_limits, set_dq_max, set_fq_max, set_f_* calls with non-NaN arguments, accepted or rejected, q_min <= q_max, dq_max >= 0, fq_max >= 0 and the friction coefficients are >= 0; a rejected call changes nothing.", "quantifier": "every finite sequence of setter calls, arguments in the extended reals", "why_tests_cant": "histories of unbounded length; NaN arguments break it (shown)", "anchors": ["src/structs/joint.cc (set_q_min, set_q_max, set_q_limits, set_dq_max, set_fq_max, set_f_coulomb, set_f_viscous, set_f_stiction)"]}
{"id": "C08", "title": "Joint type names round trip", "statement": "Parsing the printed name of a joint type returns that type, parsing ignores letter case, printing never fails, and any token that is not one of the seven names is rejected with an exception.", "quantifier": "every joint type, every string", "why_tests_cant": "all strings", "anchors": ["src/structs/joint.cc (operator<<, operator>>, kStringToJointType, kJointTypeToString)"]}
{"id": "C09", "title": "AddRigidBody accepts exactly existing parents and is additive", "statement": "AddRigidBody(rb, p) succeeds iff -1 <= p < dof; on failure nothing changes; on success it returns the old dof, dof grows by one, previous bodies, q and dq entries, loads and gravity are kept and the new q and dq entries are zero.", "quantifier": "every reachable articulated body, every rigid body and every int parent", "why_tests_cant": "every reachable state", "anchors": ["src/structs/articulated_body.cc (AddRigidBody, ExpandDof)"]}
{"id": "C10", "title": "Kinematic tree is well formed in every reachable state", "statement": "After any sequence of API calls: body i has id i and parent < i; ancestors(i) is exactly the strictly increasing path from a root to i; j is in subtree(i) iff i is in ancestors(j); subtree(i) is sorted and starts with i.", "quantifier": "every finite history of API calls, every body index", "why_tests_cant": "unbounded histories", "anchors": ["src/structs/articulated_body.cc (ExpandDof, ancestors, subtree)"]}
{"id": "C11", "title": "State setters validate and write through", "statement": "set_q/set_dq throw and change nothing when the size differs from dof; otherwise the getter returns exactly the vector passed. set_g, T_base_to_world and inertia_base read back what was written (negative base mass is rejected).", "quantifier": "every reachable state, every vector", "why_tests_cant": "every reachable state and every size", "anchors": ["src/structs/articulated_body.cc (set_q, set_dq, set_g, set_T_base_to_world, set_inertia_base)"]}
{"id": "C12", "title": "Negative link indices count from the end", "statement": "Every link-indexed accessor and algorithm gives for index i in [-dof, -1] the result for i + dof; outside [-dof, dof) the access is out of bounds (undefined behaviour), except that Position and Orientation with an explicit q answer for the base at index -dof - 1.", "quantifier": "every reachable state, every int index", "why_tests_cant": "all indices and all bodies", "anchors": ["src/structs/articulated_body.cc (rigid_bodies, q, dq, T_to_parent, T_to_world, ancestors, subtree)", "src/algorithms/forward_kinematics.cc (Position, Jacobian)"]}
{"id": "C13", "title": "Loads behave as a map of accumulated inertias", "statement": "After any sequence of AddLoad/ReplaceLoad/ClearLoad the load on link k is the sum of the inertias added since the last replace/clear of k (starting with the replaced one), other links are unaffected, and clearing an absent load is a no-op.", "quantifier": "every finite sequence of load calls", "why_tests_cant": "unbounded histories", "anchors": ["src/structs/articulated_body.cc (AddLoad, ReplaceLoad, ClearLoad)"]}
{"id": "C14", "title": "Cached results equal fresh results (kinematics and joint-space dynamics)", "statement": "In every history of setters and queries that does not move the base after a query and calls the operational-space articulated-body functions only on bodies without loads (they ignore loads, see C38 and C54), T_to_parent, T_to_world, Position, Jacobian, CentrifugalCoriolis, Gravity, ExternalTorques, Inertia, InertiaInverse, CompositeInertia, InverseDynamics and ForwardDynamics return what a freshly constructed body with the same model, q, dq, g and loads returns.", "quantifier": "every finite interleaving of setters and queries", "why_tests_cant": "the number of interleavings is unbounded; stale-cache bugs show only on particular orders", "anchors": ["include/spatial_dyn/structs/articulated_body_cache.h", "src/structs/articulated_body.cc (set_q, set_dq, set_g, ClearDynamicsCache)", "src/algorithms/inverse_dynamics.cc", "src/algorithms/forward_dynamics.cc", "src/algorithms/forward_kinematics.cc"]}
{"id": "C15", "title": "Moving the base is honoured by later queries", "statement": "After set_T_base_to_world(T) every query reflects T. (The code does not invalidate its cached transforms: violated when a world transform, Jacobian or gravity vector was computed before; it holds when no such query preceded since the last set_q.)", "quantifier": "every history", "why_tests_cant": "depends on the history before the call", "anchors": ["src/structs/articulated_body.cc (set_T_base_to_world, T_to_world)"]}
{"id": "C16", "title": "Copies are equal and independent", "statement": "A copy of an articulated body answers every query like the original, and later changes to either do not affect the other. (inertia_base is not copied by any of the three copy/move operations: violated for it.)", "quantifier": "every reachable body, every later history", "why_tests_cant": "every reachable state including cache contents", "anchors": ["src/structs/articulated_body.cc (copy constructor, move constructor, operator=)"]}
{"id": "C17", "title": "All forward kinematics variants agree", "statement": "Position(ab,q,...), Orientation(ab,q,...), Jacobian(ab,q,...) and T_to_world/CartesianPose(ab,q,...) equal the stateful variants after set_q(q). (T_to_world(i,q) and with it CartesianPose(ab,q) multiply an uninitialised transform: violated.)", "quantifier": "every reachable body, every q, link and offset", "why_tests_cant": "every configuration; uninitialised memory often happens to look right in a test", "anchors": ["src/algorithms/forward_kinematics.cc", "src/structs/articulated_body.cc (T_to_world(i,q))"]}
{"id": "C18", "title": "Jacobian is the derivative of forward kinematics", "statement": "Column j of the linear Jacobian is the partial derivative of Position with respect to q_j, and column j of the angular Jacobian is the angular velocity of the link frame per unit dq_j (d/dq_j R = [J_w,j]x R).", "quantifier": "every tree, configuration, link, offset and joint", "why_tests_cant": "derivatives at every real configuration", "anchors": ["src/algorithms/forward_kinematics.cc (Jacobian)"]}
{"id": "C19", "title": "Jacobian support and offset independence", "statement": "Jacobian columns of joints that are not ancestors of the link are zero; the angular rows do not depend on the offset; Jacobians at two offsets differ by the rigid shift of the linear rows.", "quantifier": "every tree, configuration, link and pair of offsets", "why_tests_cant": "all trees", "anchors": ["src/algorithms/forward_kinematics.cc (Jacobian, AngularJacobian, LinearJacobian)"]}
{"id": "C20", "title": "Jacobian times dq is the propagated body velocity", "statement": "J(link, offset)*dq equals the spatial velocity obtained by propagating joint velocities from the base to the link, expressed at the point in world axes.", "quantifier": "every tree, configuration, dq, link and offset", "why_tests_cant": "all trees of any depth", "anchors": ["src/algorithms/forward_kinematics.cc (Jacobian)", "src/algorithms/inverse_dynamics.cc (vel.v recursion)"]}
{"id": "C21", "title": "Hessian is the derivative of the linear Jacobian", "statement": "Entry (i,j) of the Hessian's linear part equals the partial derivative of column j of the linear Jacobian with respect to q_i; the Hessian is symmetric in i,j. (For the angular part the same claim fails: symmetric fill-in makes it nonzero where the true derivative is zero.)", "quantifier": "every tree, configuration, link, offset", "why_tests_cant": "derivatives at every configuration", "anchors": ["src/algorithms/forward_kinematics.cc (Hessian)"]}
{"id": "C22", "title": "Inverse dynamics satisfies the principle of virtual work", "statement": "For every virtual joint velocity u: u . InverseDynamics(ddq) = sum over bodies of (body virtual velocity) . (I a + v x I v - f_ext), where a is the body acceleration under ddq, dq and gravity.", "quantifier": "every tree, state, ddq, external force map and virtual velocity", "why_tests_cant": "all trees of any size", "anchors": ["src/algorithms/inverse_dynamics.cc (InverseDynamics)"]}
{"id": "C23", "title": "Inverse dynamics decomposes and both code paths agree", "statement": "InverseDynamics(ddq) = Inertia*ddq + CentrifugalCoriolis + Gravity + ExternalTorques (+ friction), term by term according to the options, whether it takes the recursive path or the cached path.", "quantifier": "every tree, state, option combination and cache state", "why_tests_cant": "cache-dependent branch and all inputs", "anchors": ["src/algorithms/inverse_dynamics.cc (InverseDynamics, CentrifugalCoriolis, Gravity, ExternalTorques, Inertia)"]}
{"id": "C24", "title": "Joint-space inertia is the kinetic energy form", "statement": "Inertia(ab) is symmetric, dq' A dq / 2 is the sum of the bodies' kinetic energies, A is positive semidefinite for physical inertias, and A_ij = 0 when neither joint is an ancestor of the other.", "quantifier": "every tree, configuration and velocity", "why_tests_cant": "all trees", "anchors": ["src/algorithms/inverse_dynamics.cc (Inertia)"]}
{"id": "C25", "title": "Gravity torque is the gradient of potential energy", "statement": "Gravity(ab) is the gradient with respect to q of U(q) = -sum m_i g . com_i(q) (loads included) and is linear in g.", "quantifier": "every tree, configuration and gravity vector", "why_tests_cant": "derivative at every configuration", "anchors": ["src/algorithms/inverse_dynamics.cc (Gravity)"]}
{"id": "C26", "title": "Energy balance", "statement": "Along every differentiable trajectory the time derivative of kinetic plus potential energy equals dq . tau where tau is InverseDynamics with gravity and centrifugal/Coriolis terms (external forces contribute their power).", "quantifier": "every tree and every twice differentiable trajectory", "why_tests_cant": "all trajectories", "anchors": ["src/algorithms/inverse_dynamics.cc (InverseDynamics, CentrifugalCoriolis)"]}
{"id": "C27", "title": "External torques are minus the Jacobian transpose image", "statement": "ExternalTorques(f) = - sum over links k of J_k' f_k with J_k the Jacobian of link k at the world origin; it is linear in f and ignores entries whose key is not a link.", "quantifier": "every tree, state and force map", "why_tests_cant": "all trees and maps", "anchors": ["src/algorithms/inverse_dynamics.cc (ExternalTorques)"]}
{"id": "C28", "title": "Composite inertia is the sum over the subtree", "statement": "CompositeInertia(link) acts as the sum over all bodies in subtree(link), loads included, of their inertias transformed into the link frame, provided no merged pair has zero total mass.", "quantifier": "every tree, configuration and link", "why_tests_cant": "all trees", "anchors": ["src/algorithms/inverse_dynamics.cc (CompositeInertia, Inertia)"]}
{"id": "C29", "title": "Forward and inverse dynamics are mutually inverse", "statement": "Without friction, ForwardDynamics(InverseDynamics(ddq)) = ddq and InverseDynamics(ForwardDynamics(tau)) = tau under the same options, whenever the joint-space inertia is positive definite.", "quantifier": "every tree, state, force map and option set", "why_tests_cant": "all inputs", "anchors": ["src/algorithms/forward_dynamics.cc (ForwardDynamics, InertiaInverse)", "src/algorithms/inverse_dynamics.cc"]}
{"id": "C30", "title": "Articulated-body forward dynamics agrees with ForwardDynamics", "statement": "ForwardDynamicsAba(tau) = ForwardDynamics(tau) without friction for a positive definite joint-space inertia, when the base rotation leaves gravity unchanged. (With a base rotated against gravity it returns the accelerations for gravity turned with the base: violated.)", "quantifier": "every tree, state, force map and option set", "why_tests_cant": "all trees; the base-rotation corner is not exercised by a base at identity", "anchors": ["src/algorithms/forward_dynamics.cc (ForwardDynamicsAba)"]}
{"id": "C31", "title": "Articulated-body inverse inertia is the inverse", "statement": "On a serial chain InertiaInverseAba(ab) is the inverse of Inertia(ab). (On branching trees entries between branches are never written: violated.)", "quantifier": "every serial chain and configuration", "why_tests_cant": "all chain lengths", "anchors": ["src/algorithms/forward_dynamics.cc (InertiaInverseAba)"]}
{"id": "C32", "title": "Friction model bounds and dissipation", "statement": "With non-negative coefficients: resisting friction never exceeds the driving torque in the stiction regime, never reverses it, opposes velocity in the kinetic regime (power dq*F >= 0), and is zero when all coefficients are zero. (With stiction but no Coulomb friction the static branch is used at any speed and can drive the motion: violated.)", "quantifier": "every joint, velocity, torque and threshold", "why_tests_cant": "real-valued case analysis on thresholds", "anchors": ["src/algorithms/inverse_dynamics.cc (Friction)"]}
{"id": "C33", "title": "Integrate performs the documented scheme", "statement": "Integrate(kEuler/kHeuns/kRk4) leaves exactly the state given by the textbook scheme for q'' = ForwardDynamics at the pre-step state, regardless of cache contents; body structure, g and loads are unchanged.", "quantifier": "every body, state, tau, dt, options and cache state", "why_tests_cant": "histories and all inputs", "anchors": ["src/algorithms/simulation.cc (Integrate)"]}
{"id": "C34", "title": "Integrate with joint limits keeps the state legal", "statement": "With joint_limits on, after any number of Integrate calls of any method, every joint position lies within [q_min, q_max] and no joint at a limit has velocity pointing outward.", "quantifier": "every finite sequence of steps, taus, dts and methods", "why_tests_cant": "unbounded histories", "anchors": ["src/algorithms/simulation.cc (ClipQ, ClipDq, Integrate)"]}
{"id": "C35", "title": "Operational space inertia and dynamically consistent inverse", "statement": "When J A^-1 J' is nonsingular: opspace::Inertia is its inverse, J * JacobianDynamicInverse = 1, the null-space matrix N = 1 - Jbar J is idempotent with J N = 0, and null-space torques N' tau cause no task acceleration.", "quantifier": "every tree, configuration and task Jacobian", "why_tests_cant": "all inputs", "anchors": ["src/algorithms/opspace_dynamics.cc (Inertia, InertiaInverse, JacobianDynamicInverse, InverseDynamics)"]}
{"id": "C36", "title": "Operational space inverse dynamics realises the commanded acceleration", "statement": "The torque returned by opspace::InverseDynamics produces task acceleration ddx at rest without gravity; with two prioritised tasks the second does not disturb the first.", "quantifier": "every tree, configuration, full-rank task and ddx", "why_tests_cant": "all inputs", "anchors": ["src/algorithms/opspace_dynamics.cc (InverseDynamics)"]}
{"id": "C37", "title": "Operational space cache is transparent", "statement": "opspace::Inertia, InertiaInverse, IsSingular and JacobianDynamicInverse return what a fresh body returns for the same J and tolerance. (JacobianDynamicInverse can return the value for an older tolerance: violated.)", "quantifier": "every finite interleaving of setters and operational-space queries", "why_tests_cant": "unbounded histories", "anchors": ["src/algorithms/opspace_dynamics.cc (Inertia, InertiaInverse, JacobianDynamicInverse)"]}
{"id": "C38", "title": "Operational space ABA agrees with the dense computation", "statement": "opspace::InertiaInverseAba = J A^-1 J' for the link-origin Jacobian when there are no loads. (With loads, or when a loaded articulated inertia is cached, it differs; the offset argument is ignored: violated.)", "quantifier": "every tree, configuration and link", "why_tests_cant": "all trees", "anchors": ["src/algorithms/opspace_dynamics_aba.cc (InertiaInverseAba)"]}
{"id": "C39", "title": "GravityAba is a function of the state", "statement": "opspace::GravityAba called twice in the same state returns the same vector and equals opspace::Gravity. (It reads the articulated inertia left by an earlier ABA call and treats external forces with the opposite sign: violated.)", "quantifier": "every history", "why_tests_cant": "depends on earlier calls", "anchors": ["src/algorithms/opspace_dynamics_aba.cc (GravityAba)"]}
{"id": "C40", "title": "Velocity derivative of inverse dynamics is exact", "statement": "With friction disabled, InverseDynamicsVelocityDerivative is the matrix of partial derivatives of InverseDynamics with respect to dq.", "quantifier": "every tree, state, ddq, external forces and remaining options", "why_tests_cant": "derivatives everywhere", "anchors": ["src/algorithms/dynamics_derivatives.cc (InverseDynamicsVelocityDerivative)"]}
{"id": "C41", "title": "Position derivative of inverse dynamics is exact", "statement": "InverseDynamicsPositionDerivative is the matrix of partial derivatives of InverseDynamics with respect to q. (A whole matrix is added to one column: size mismatch for every body with a parent.)", "quantifier": "every tree, state and ddq", "why_tests_cant": "derivatives everywhere; depends on assertion settings", "anchors": ["src/algorithms/dynamics_derivatives.cc (InverseDynamicsPositionDerivative)"]}
{"id": "C42", "title": "Discrete inverse dynamics and variational integration", "statement": "For a body without loads, after any history of calls, discrete::InverseDynamics returns the generalised impulse of the discrete Euler-Lagrange equations through the previous configuration, the current one and q_next: the change of the discrete momentum of every link less the impulse of the external forces, projected on the joints, plus dt times Gravity if requested. The previous configuration is the one fixed by the last discrete step or discrete inverse dynamics with the same dt, and q - dt dq after any change of state. discrete::Integrate never fails; when its iteration converges it moves the body to the first iterate whose residual is below variational_epsilon, sets dq to the central difference (q_next - q_prev)/(2 dt), changes nothing else, and the position it started from is the previous configuration of the next step.", "quantifier": "every tree, every history of calls, every dt, q_next, torques, external forces and options, every logarithm function", "why_tests_cant": "the previous configuration is hidden state carried through unbounded histories; a test compares a few trajectories", "anchors": ["src/algorithms/discrete_dynamics.cc (InverseDynamics, Integrate)", "include/spatial_dyn/structs/articulated_body_cache.h (DrneaData)"]}
{"id": "C43", "title": "Inverse kinematics stopping rule", "statement": "InverseKinematics returns within 10000 iterations, never modifies its argument, and stops early only when both the position and orientation errors are below tolerance. (It measures orientation at the last link whatever link is asked for, and its identity task matrix is sized by the first call in the process: violated.)", "quantifier": "every body, target, link and call history", "why_tests_cant": "process-wide state", "anchors": ["src/algorithms/inverse_kinematics.cc (InverseKinematics)"]}
{"id": "C44", "title": "JSON round trip preserves the model", "statement": "Serialising an articulated body to JSON and reading it back gives the same tree, joints, inertias and graphics. (q, dq, g and loads are not serialised.)", "quantifier": "every reachable articulated body", "why_tests_cant": "all bodies", "anchors": ["src/parsers/json.cc"]}
{"id": "C45", "title": "YAML round trip preserves the model", "statement": "Serialising to YAML and back gives the same tree. (ids and parents are not read back: violated for every body with a nontrivial tree.)", "quantifier": "every reachable articulated body", "why_tests_cant": "all bodies", "anchors": ["src/parsers/yaml.cc"]}
{"id": "C46", "title": "URDF loading produces a topologically ordered tree", "statement": "Loading a URDF tree gives each non-fixed link one body, parents before children, with parent indices following the URDF joints; a link below a fixed joint is merged into the nearest moving link above it (or the base), keeping its inertia and its pose at q = 0; total mass is preserved. (Links outside the tree of the first root are silently lost and a file with a single link is refused: violated for those.)", "quantifier": "every URDF description: any links, joints, names, origins and inertias", "why_tests_cant": "all trees", "anchors": ["src/parsers/urdf.cc (LoadModel, ParseRigidBody, AddChildrenDfs, AddRigidBody)"]}
{"id": "C47", "title": "URDF inertia, axis and limit conversion", "statement": "Limits, damping and friction of every joint are those of the file. The rotational inertia read from URDF is the tensor expressed in link axes, and joint axes map to the matching joint type. (Inertia is rotated by the inverse rotation and axes other than +x,+y,+z collapse: violated.)", "quantifier": "every inertial origin rotation and axis vector", "why_tests_cant": "all rotations", "anchors": ["src/parsers/urdf.cc (ParseRigidBody, LoadModel)"]}
{"id": "C48", "title": "Option conversions keep every shared field", "statement": "Converting integration options to forward-dynamics options and forward to inverse dynamics keeps gravity, centrifugal_coriolis, friction and stiction_epsilon.", "quantifier": "every option record", "why_tests_cant": "all combinations", "anchors": ["include/spatial_dyn/structs/options.h", "src/structs/options.cc"]}
{"id": "C49", "title": "Queries do not change the observable state", "statement": "No kinematics, dynamics, derivative or operational-space query changes dof, bodies, q, dq, g, loads or base transform.", "quantifier": "every query and every reachable state", "why_tests_cant": "all histories", "anchors": ["src/structs/articulated_body.cc", "src/algorithms/forward_kinematics.cc", "src/algorithms/inverse_dynamics.cc", "src/algorithms/forward_dynamics.cc", "src/algorithms/opspace_dynamics.cc", "src/algorithms/opspace_dynamics_aba.cc", "src/algorithms/dynamics_derivatives.cc"]}
{"id": "C50", "title": "Moved-from bodies are unusable", "statement": "After a move the source keeps its dof but has no cache: any query or load call on it is undefined behaviour, while assigning a new value to it restores full function.", "quantifier": "every moved-from body and every call", "why_tests_cant": "undefined behaviour cannot be tested", "anchors": ["src/structs/articulated_body.cc (move constructor)"]}
{"id": "C51", "title": "Opspace controller status word", "statement": "ComputeOpspaceControl sets each convergence bit iff the corresponding error norm is below its threshold or the threshold is negative; bits are independent. (The Python wrapper with default thresholds indexes None and raises.)", "quantifier": "every error, velocity and threshold", "why_tests_cant": "all real inputs", "anchors": ["src/python/spatial_dyn.cc (ComputeOpspaceControl, IsConverged)", "spatialdyn/opspace_control.py"]}
{"id": "C52", "title": "Static friction holds a resting body", "statement": "If the body is at rest and at every joint the applied torque differs from the holding torque by no more than the static limit, ForwardDynamics with friction returns zero acceleration. (ForwardDynamicsAba applies friction before gravity, so it lets the body fall: violated.)", "quantifier": "every tree, resting state, torque and force map", "why_tests_cant": "all inputs; thresholds on reals", "anchors": ["src/algorithms/forward_dynamics.cc (ForwardDynamics, ForwardDynamicsAba)", "src/algorithms/inverse_dynamics.cc (Friction)"]}
{"id": "C53", "title": "CentrifugalCoriolisAba agrees with the dense computation", "statement": "Without loads opspace::CentrifugalCoriolisAba(link, offset) equals opspace::CentrifugalCoriolis called with the Jacobian of the same point of the link, whatever was computed before, when the task is regular. (Proved at the origin of the link; at an offset the two differ, because the offset argument does not move the point, and loads are ignored.)", "quantifier": "every tree, state, link and history", "why_tests_cant": "depends on all trees and on earlier calls", "anchors": ["src/algorithms/opspace_dynamics_aba.cc (CentrifugalCoriolisAba)", "src/algorithms/opspace_dynamics.cc (CentrifugalCoriolis)"]}
{"id": "C54", "title": "Articulated-body answers do not depend on earlier calls", "statement": "ForwardDynamicsAba returns what a freshly constructed body with the same model, state, gravity and loads returns, whatever calls came before. (After an operational-space articulated-body call on a loaded body it uses the inertias without the load: violated.)", "quantifier": "every finite interleaving of setters and queries", "why_tests_cant": "unbounded histories of calls", "anchors": ["src/algorithms/forward_dynamics.cc (ForwardDynamicsAba)", "src/algorithms/opspace_dynamics_aba.cc (InertiaInverseAba)"]}
{"id": "C55", "title": "Velocity derivative includes friction", "statement": "With friction enabled, InverseDynamicsVelocityDerivative is the matrix of partial derivatives of InverseDynamics wherever the dry friction is locally constant. (The viscous coefficient is missing from the diagonal: violated.)", "quantifier": "every tree, state, ddq, external forces and friction coefficients", "why_tests_cant": "derivatives everywhere", "anchors": ["src/algorithms/dynamics_derivatives.cc (InverseDynamicsVelocityDerivative)", "src/algorithms/inverse_dynamics.cc (Friction)"]}
{"id": "C56", "title": "Loads take part in the discrete dynamics", "statement": "The momenta in the equations of discrete::InverseDynamics are those of the links together with the loads attached with AddLoad or ReplaceLoad, as in the continuous dynamics.", "quantifier": "every tree, every set of loads, every history", "why_tests_cant": "which momenta enter is a statement about all states; existing examples attach no load in discrete mode", "anchors": ["src/algorithms/discrete_dynamics.cc (InverseDynamics)", "src/structs/articulated_body.cc (AddLoad)"]}
{"id": "C57", "title": "Outcome of a discrete step with any iteration budget", "statement": "The state after discrete::Integrate, and the previous configuration used by the next discrete call, are determined by the observable state, the previous configuration the history has fixed and the arguments, also when the iteration budget is zero or runs out before convergence.", "quantifier": "every body, history, dt, tolerance and iteration budget", "why_tests_cant": "reading memory no call has written and inconsistent hidden state show only in particular histories", "anchors": ["src/algorithms/discrete_dynamics.cc (Integrate)"]}
{"id": "C58", "title": "Pickling returns an equal body", "statement": "pickle.loads(pickle.dumps(ab)) returns a body with the same names, graphics, tree, poses, inertias and joints. (JSON text writes an infinite number as null, which cannot be read as a number, and the default joint limits are infinite: unpickling throws.)", "quantifier": "every articulated body", "why_tests_cant": "depends on every joint limit; no test pickles a body", "anchors": ["src/python/spatial_dyn.cc (py::pickle)", "src/parsers/json.cc (to_json, from_json)"]}
{"id": "C59", "title": "Names of geometry types", "statement": "Parsing the printed name of a geometry type, in any letter case and with any white space around it, returns the type; any other first token is rejected; different types have different names.", "quantifier": "every type and every text", "why_tests_cant": "infinitely many texts", "anchors": ["src/structs/graphics.cc (operator<<, operator>>)"]}
{"id": "C60", "title": "Reading a document into a body that has links", "statement": "Reading JSON into an articulated body that already has links adds the tree of the document beside them, with its own internal parents. (The parent indices of the document are used as they are, so its links are attached to the old ones: violated.)", "quantifier": "every body, every document of a body", "why_tests_cant": "all pairs of trees", "anchors": ["src/parsers/json.cc (from_json)", "src/structs/articulated_body.cc (AddRigidBody)"]}
{"id": "C61", "title": "Python integration methods and keyword arguments", "statement": "integrate(method=...) accepts exactly the words euler, heuns and rk4 in any letter case and raises for every other word; every keyword argument of the Python dynamics functions sets the option of the same name, and a keyword left out has the default of the C++ option record.", "quantifier": "every string, every combination of given and omitted keywords", "why_tests_cant": "all strings and all keyword combinations", "anchors": ["src/python/spatial_dyn.cc (integrate, inverse_dynamics, forward_dynamics, forward_dynamics_aba)", "include/spatial_dyn/structs/options.h"]}
{"id": "C62", "title": "Default forward and inverse dynamics undo each other", "statement": "Calling InverseDynamics with default options on the accelerations ForwardDynamics returns with default options gives back the torques. (The defaults disagree on centrifugal_coriolis: violated for moving bodies, the error is exactly CentrifugalCoriolis; it holds at rest.)", "quantifier": "every reachable body with positive definite inertia, every torque", "why_tests_cant": "all states; a test at rest passes", "anchors": ["include/spatial_dyn/structs/options.h", "src/algorithms/forward_dynamics.cc (ForwardDynamics)", "src/algorithms/inverse_dynamics.cc (InverseDynamics)"]}
{"id": "C63", "title": "Operational-space control realises its proportional-derivative laws", "statement": "Applied to the body, the torques of opspace_control make the tracked point and the last link accelerate exactly as -kp*error - kv*velocity asks, for position and orientation at once where the Jacobian is not singular, and for position alone where it is; the joint task in the nullspace does not disturb them.", "quantifier": "every reachable body with nonsingular inertia, every goal, gain, tracked point, task frame and desired configuration; acceleration limits off; velocity-dependent torques absent or the body at rest", "why_tests_cant": "all states, gains and redundancies", "anchors": ["src/python/spatial_dyn.cc (ComputeOpspaceControl)", "src/algorithms/opspace_dynamics.cc (InverseDynamics, IsSingular)"]}
{"id": "C64", "title": "Operational-space control moves towards the goal", "statement": "From rest and with equal gains, opspace_control accelerates the tracked point towards the goal position. (Holds without a task orientation; violated with one: the Jacobian is turned into the task frame but the position error is not, so a task frame turned by half a turn drives the point away from its goal.)", "quantifier": "every reachable body, every goal and task frame", "why_tests_cant": "all task frames; tests use the default one", "anchors": ["src/python/spatial_dyn.cc (ComputeOpspaceControl)", "spatialdyn/opspace_control.py (opspace_control)"]}
{"id": "C65", "title": "Joint-space control realises its law and reports convergence", "statement": "Applied to the body, the torques of joint_space_control accelerate each joint exactly as -kp*(q - q_des) - kv*dq asks; the flag is true iff no thresholds were given or both errors are below them; without a time step the state is kept; with one, of whatever sign, the body moves as Integrate moves it. It answers for every goal of the right size.", "quantifier": "every reachable body with positive definite inertia, every goal, gains, thresholds and time step; for the law, the acceleration limit off", "why_tests_cant": "all states", "anchors": ["spatialdyn/joint_space_control.py (joint_space_control, is_converged)"]}
{"id": "C66", "title": "Controllers without goals hold a resting body", "statement": "Called without goals, opspace_control and joint_space_control return for a resting body exactly the torques that balance gravity, none without gravity compensation, whatever the gains, tracked point and task frame, singular or not; under them the body does not accelerate.", "quantifier": "every reachable resting body, every gain, tracked point and task frame; both convergence thresholds given (opspace_control fails without them), acceleration limits off", "why_tests_cant": "all configurations, singular ones included", "anchors": ["spatialdyn/opspace_control.py (opspace_control, _parse_opspace_control_pos, _parse_opspace_control_ori)", "spatialdyn/joint_space_control.py (joint_space_control)", "src/python/spatial_dyn.cc (ComputeOpspaceControl)"]}
{"id": "C67", "title": "Clipping of the acceleration force", "statement": "With f_acc_max > 0 opspace::InverseDynamics scales the commanded task force so that its norm is at most f_acc_max and keeps its direction: the realised acceleration is s*ddx for one factor s in (0, 1], s = 1 exactly when the limit is off or not exceeded, and otherwise the force has norm f_acc_max.", "quantifier": "every reachable body with positive definite inertia, every regular task, every ddx and limit", "why_tests_cant": "all forces and limits, and the factor must be the same in every direction", "anchors": ["src/algorithms/opspace_dynamics.cc (InverseDynamics)"]}
{"id": "C68", "title": "Velocity-product compensation in operational space", "statement": "With centrifugal_coriolis on, the point of the task accelerates exactly as commanded while the body moves. (The tolerance svd_epsilon is passed where the link index belongs, so the velocity products of link 0 are used whatever link the task is about, and the classical term omega x v is missing: violated; it holds at rest. The option stiction_epsilon is passed on as a truth value and has no effect.)", "quantifier": "every reachable body with positive definite inertia, every link, point, ddx and every trajectory through the state", "why_tests_cant": "all moving states and links; at rest a test passes", "anchors": ["src/algorithms/opspace_dynamics.cc (InverseDynamics, CentrifugalCoriolis, Friction)"]}
{"id": "C69", "title": "Malformed URDF files are refused", "statement": "A URDF file that does not describe a robot is refused with an exception: no file, no robot, no name, no link, a joint between links that do not exist, an unsupported joint type. (A ring of joints or a joint without child makes the parser use an invalid pointer, an empty link name recurses without end, joints of unknown types and limits that cannot be read as numbers are silently left out: violated.)", "quantifier": "every file", "why_tests_cant": "undefined behaviour and endless recursion cannot be tested", "anchors": ["src/parsers/urdf.cc (LoadModel, AddChildrenDfs, ParseElement, ParseAttribute)"]}
{"id": "C70", "title": "URDF visuals are kept", "statement": "After loading, with or without simplification, the model shows every visual of the file with its name, shape and material at its world pose for q = 0, and nothing else. (Materials are looked up inside geometry, where URDF does not put them, so they are lost: violated.)", "quantifier": "every URDF description, every number of visuals and depth of fixed joints", "why_tests_cant": "all trees and all chains of merged links", "anchors": ["src/parsers/urdf.cc (ParseGraphics, LoadModel)"]}
{"id": "C71", "title": "URDF links without inertial", "statement": "A link without inertial has no mass, as the URDF format says. (It is given one kilogram at its origin: violated.)", "quantifier": "every URDF description", "why_tests_cant": "all links", "anchors": ["src/parsers/urdf.cc (ParseRigidBody)", "include/spatial_dyn/structs/rigid_body.h"]}
{"id": "C72", "title": "Posture of the operational-space controller", "statement": "In the directions of joint motion that the task does not notice, the torques of opspace_control make the joints accelerate as near as possible (in the least squares sense) to the joint law -kp (q - q_des) - kv dq; in the remaining directions the task acceleration is realised with the least kinetic effort. The resulting joint accelerations are exactly the sum of the two.", "quantifier": "every tree with positive definite inertia, state reached by any sequence of calls, goal, gains and desired posture; the Jacobian of the task not singular, velocity terms absent or the body at rest", "why_tests_cant": "a least squares optimum over all joint accelerations cannot be sampled", "anchors": ["src/python/spatial_dyn.cc (ComputeOpspaceControl)", "src/algorithms/opspace_dynamics.cc (InverseDynamics)"]}
{"id": "C73", "title": "Lagrange's equations", "statement": "Along every twice differentiable trajectory, for every joint i: the time derivative of row i of Inertia times dq, minus the partial derivative with respect to q_i of kinetic minus potential energy, equals row i of InverseDynamics (gravity and centrifugal/Coriolis on) plus the generalised external force.", "quantifier": "every tree, trajectory, joint, external force map and load", "why_tests_cant": "derivatives along all trajectories", "anchors": ["src/algorithms/inverse_dynamics.cc (InverseDynamics, Inertia)"]}
{"id": "C74", "title": "Momentum of joints on the base", "statement": "Along every motion whose accelerations are those of ForwardDynamics, the momentum (row of Inertia times dq) of a joint attached to the base changes at the rate of its torque minus Gravity plus the generalised external force; it is conserved when the torque balances gravity and there are no external forces.", "quantifier": "every tree and every motion for all time", "why_tests_cant": "conservation for all time along exact motions", "anchors": ["src/algorithms/forward_dynamics.cc (ForwardDynamics)", "src/algorithms/inverse_dynamics.cc (Inertia, Gravity)"]}
{"id": "C75", "title": "Velocity products are the Christoffel form of the inertia", "statement": "Row i of CentrifugalCoriolis is the sum over j, k of (dA_ij/dq_k - (1/2) dA_jk/dq_i) dq_j dq_k with A = Inertia.", "quantifier": "every tree, configuration and velocity", "why_tests_cant": "derivatives at every configuration", "anchors": ["src/algorithms/inverse_dynamics.cc (CentrifugalCoriolis, Inertia)"]}
{"id": "C76", "title": "Moving the base moves the robot and nothing else", "statement": "Two bodies that differ in the base transform by a rigid motion X, with gravity turned along, have poses and Jacobians that differ by X and equal Inertia, CentrifugalCoriolis, Gravity, and, with external forces turned along, equal ExternalTorques, InverseDynamics and ForwardDynamics.", "quantifier": "every tree, state, rigid motion, force map and pair of histories", "why_tests_cant": "all rigid motions and trees", "anchors": ["src/algorithms/forward_kinematics.cc", "src/algorithms/inverse_dynamics.cc", "src/algorithms/forward_dynamics.cc", "src/structs/articulated_body.cc (set_T_base_to_world)"]}
{"id": "C77", "title": "Documents are refused or read as written", "statement": "Whatever JSON or YAML document is read into a body, the result is either a refusal or a body with one link per element, in order, holding the name, pose, inertia and joint data of the element (JSON: and its parent) with defaults for what is left out; its joints have ordered limits, its masses are not negative, its inertia tensors symmetric and its parents come before their children. An element with an unknown or missing joint type, a negative mass, reversed limits, a negative bound or (JSON) a parent that does not come before it is never accepted.", "quantifier": "every document whatsoever, every body read into", "why_tests_cant": "all documents, also those no program would write", "anchors": ["src/parsers/json.cc (from_json)", "src/parsers/yaml.cc (decode)", "src/structs/rigid_body.cc (set_inertia)", "src/structs/joint.cc", "src/structs/articulated_body.cc (AddRigidBody)"]}
{"id": "C78", "title": "Motions exist and are unique", "statement": "From every state, under constant torques and external forces fixed in the world, without friction, there is exactly one curve of states for all times t >= 0 whose position rate is dq and whose velocity rate is what ForwardDynamics (or ForwardDynamicsAba) with centrifugal_coriolis answers for the body put in that state.", "quantifier": "every tree with positive definite inertia, every state, torques, external forces, gravity on or off, and unbounded time", "why_tests_cant": "existence for all times and uniqueness are statements about infinitely many curves", "anchors": ["src/algorithms/forward_dynamics.cc (ForwardDynamics, ForwardDynamicsAba)", "src/structs/articulated_body.cc (set_q, set_dq)"]}
{"id": "C79", "title": "Repeated integration converges to the motion", "statement": "Calling Integrate k times with step dt, k dt <= T, without friction and joint limits, never fails and ends within C dt^p of the exact motion at time k dt in every joint position and velocity, with p = 1 for kEuler, 2 for kHeuns, 4 for kRk4, C independent of dt and k.", "quantifier": "every tree with positive definite inertia, state, torques, external forces, horizon T, and all sufficiently small steps", "why_tests_cant": "order of accuracy over all steps and systems", "anchors": ["src/algorithms/simulation.cc (Integrate)", "src/algorithms/forward_dynamics.cc"]}
{"id": "C80", "title": "Energy drift of the integrators", "statement": "Without torques, external forces, friction and joint limits, with gravity and centrifugal_coriolis, the kinetic plus potential energy after any number of calls of Integrate within time T differs from the initial energy by at most C dt^p, p = 1, 2, 4 for kEuler, kHeuns, kRk4.", "quantifier": "every tree with positive definite inertia, state, horizon T, and all sufficiently small steps", "why_tests_cant": "a bound over unboundedly many steps and all systems", "anchors": ["src/algorithms/simulation.cc (Integrate)", "src/algorithms/forward_dynamics.cc", "src/algorithms/inverse_dynamics.cc (Inertia, Gravity)"]}
{"id": "C81", "title": "Joint-space control is stable", "statement": "A body that starts close enough to the goal configuration, and slowly enough, and then moves under the torques joint_space_control answers at every instant (positive gains, gravity compensation, no clipping, no friction) approaches the goal exponentially with its velocities, although the velocity products are not compensated; such a motion exists for all times. When the velocity products do not act, this holds from every state. In particular for the default gains.", "quantifier": "every tree with positive definite inertia, every goal, all positive gains, all initial states near the goal and unbounded time", "why_tests_cant": "asymptotic behaviour for all times from a continuum of states", "anchors": ["spatialdyn/joint_space_control.py (joint_space_control)", "src/algorithms/forward_dynamics.cc (ForwardDynamics)", "src/algorithms/inverse_dynamics.cc (InverseDynamics)"]}
{"id": "C82", "title": "Repeated joint-space control with an integration step reaches the goal", "statement": "Calling joint_space_control(ab, goal, integration_step=dt) again and again, from a state close to the goal and with dt not too large, never fails and brings the body to the goal exponentially in k*dt, with constants that do not depend on dt and k; after finitely many calls every call reports convergence, whatever the positive thresholds. In particular with all other arguments left out.", "quantifier": "every tree with positive definite inertia, every goal, all positive gains and thresholds, all small steps, all states near the goal and any number of calls", "why_tests_cant": "unboundedly many calls and a continuum of states and steps", "anchors": ["spatialdyn/joint_space_control.py (joint_space_control, is_converged)", "src/algorithms/simulation.cc (Integrate)"]}
{"id": "C83", "title": "MATLAB functions answer column by column", "statement": "For an array Q with dof rows and any further dimensions, inertia, gravity, hessian, centrifugal_coriolis, inverse_dynamics, its derivatives and jacobian_dynamic_inverse return an array whose entries for each column of Q (dQ, ddQ) are what the library function answers for the body put in that state, and leave the body in the state of the last column.", "quantifier": "every reachable body, arrays of every size and number of dimensions, every entry", "why_tests_cant": "unboundedly many columns, each computed on the caches left by the one before", "anchors": ["src/matlab/inertia.cc", "src/matlab/gravity.cc", "src/matlab/hessian.cc", "src/matlab/centrifugal_coriolis.cc", "src/matlab/inverse_dynamics.cc", "src/matlab/inverse_dynamics_position_derivative.cc", "src/matlab/inverse_dynamics_velocity_derivative.cc", "src/matlab/jacobian_dynamic_inverse.cc"]}
{"id": "C84", "title": "MATLAB link and offset arguments", "statement": "position, jacobian and jacobian_dynamic_inverse answer for the link and the offset given by name, in any order, the last one counting, with the last link and no offset when left out; position and jacobian leave the body as it is. (jacobian_dynamic_inverse parses link and offset and does not use them: violated.)", "quantifier": "every reachable body, every array of configurations, every list of named arguments", "why_tests_cant": "all argument lists", "anchors": ["src/matlab/position.cc", "src/matlab/jacobian.cc", "src/matlab/jacobian_dynamic_inverse.cc"]}
{"id": "C85", "title": "MATLAB discrete inverse dynamics", "statement": "Column i of discrete_inverse_dynamics(ab, Q, dt) is the generalised impulse, gravity included, of the discrete Euler-Lagrange equations through columns i, i+1 and i+2 of Q.", "quantifier": "every body without loads reached by calls that do not step it, every matrix of configurations and every nonzero dt", "why_tests_cant": "unboundedly many columns; the previous configuration is hidden state", "anchors": ["src/matlab/discrete_inverse_dynamics.cc", "src/algorithms/discrete_dynamics.cc (InverseDynamics)"]}
{"id": "C86", "title": "MATLAB inverse kinematics reaches the orientation asked for", "statement": "inverse_kinematics(ab, x, quat, q_0) answers with InverseKinematics for the position x and the orientation quat from the guess q_0. (The orientation is read from the array of the position, beyond its end for a vector of three entries; without a guess a missing argument is read; a refused call has already moved the body: violated.)", "quantifier": "every body, position, quaternion, guess and list of named arguments", "why_tests_cant": "undefined behaviour cannot be tested", "anchors": ["src/matlab/inverse_kinematics.cc"]}
{"id": "C87", "title": "MATLAB functions refuse arguments of the wrong shape", "statement": "Arrays whose number of rows is not dof, motions of different sizes, offsets without three rows and links without one row give no output and leave the body as it is; with the body alone the functions answer for its present state. (centrifugal_coriolis reads beyond a dQ with fewer columns and never answers with the body alone; jacobian_dynamic_inverse with the body alone is undefined unless dof = 6: violated.)", "quantifier": "every body and all argument lists of the wrong shape", "why_tests_cant": "all shapes; undefined behaviour cannot be tested", "anchors": ["src/matlab/*.cc"]}
{"id": "C88", "title": "Momentum of joints on the base under the variational integrator", "statement": "Each converged discrete::Integrate changes the momentum about a joint attached to the base (the discrete momenta of the links it carries, along its axis) by dt times its torque minus gravity plus the external forces, within the tolerance of the root finding; while these balance, n steps of equal length change it by at most n tolerances, whatever the step length.", "quantifier": "every tree without loads, every history, step length, torques and any number of steps", "why_tests_cant": "unboundedly many steps and all trees", "anchors": ["src/algorithms/discrete_dynamics.cc (Integrate, InverseDynamics)"]}
{"id": "C89", "title": "Dragging a link in the demonstration", "statement": "Dragging a link of the robot in the web page pulls the clicked point of the link towards the mouse with 100 newtons per metre: ExternalTorques for the forces of the program are minus the transposed linear Jacobian of that point applied to this force, and the simulation step receives the impulse of the force over its time step. Messages about other objects and clicks on the base exert no force on any link.", "quantifier": "every reachable robot, link, clicked point and mouse position", "why_tests_cant": "all robots, configurations and points", "anchors": ["apps/opspace/src/main.cc (ComputeExternalForces)", "src/algorithms/inverse_dynamics.cc (ExternalTorques)", "src/algorithms/discrete_dynamics.cc (InverseDynamics)"]}
{"id": "C90", "title": "Messages to the demonstration", "statement": "With messages that have all fields and name an existing link every cycle of the program succeeds, whatever the gains, goals and time steps, for any number of cycles; a message of the wrong types stops it with an exception and nothing a web page sends is undefined behaviour. (A message without the field of the object and one about a link that does not exist are undefined behaviour: violated.)", "quantifier": "every robot, every message and every number of cycles", "why_tests_cant": "undefined behaviour and endless runs cannot be tested", "anchors": ["apps/opspace/src/main.cc (main, ComputeExternalForces, AdjustPosition)"]}
{"id": "C91", "title": "Keys of the demonstration", "statement": "After any run the goal position has moved by 0.1 millimetres for every cycle a key was held: d and a along x, w and s along y, e and q along z; other keys do nothing.", "quantifier": "every robot and every sequence of cycles and keys", "why_tests_cant": "unboundedly many cycles", "anchors": ["apps/opspace/src/main.cc (AdjustPosition, main)"]}
{"id": "C92", "title": "The demonstration holds a resting robot", "statement": "Started with a resting robot, and while nobody drags a link or presses a key, the program keeps the robot exactly at the home configuration for ever, publishes the torques of gravity, the unchanged goal and the end effector at the goal.", "quantifier": "every tree with positive definite inertia, home configuration, gains, nonzero time steps and number of cycles, singular configurations included", "why_tests_cant": "unboundedly many cycles", "anchors": ["apps/opspace/src/main.cc (main)", "src/algorithms/discrete_dynamics.cc (Integrate)", "src/algorithms/opspace_dynamics.cc (InverseDynamics)"]}
{"id": "C93", "title": "MATLAB variables refer to robots", "statement": "A MATLAB program behaves as if every loadModel made a new robot, every variable referred to a robot or to none, and assignment made another reference to the same robot, wherever the robots are in memory, as long as it does not use or delete a robot that was deleted; for programs that make up no addresses this is the exact condition under which no placement in memory leads to undefined behaviour. A call changes no robot but its own.", "quantifier": "every program of loads, assignments, clears, deletions and calls of the twelve functions, every behaviour of the memory allocator", "why_tests_cant": "all programs and all address assignments", "anchors": ["src/matlab/load_model.cc", "src/matlab/delete_articulated_body.cc", "src/matlab/*.cc", "matlab/+spatialdyn/ArticulatedBody.m", "matlab/+spatialdyn/*.m"]}
{"id": "C94", "title": "MATLAB robots that are deleted or forgotten", "statement": "A call with a deleted robot is refused, and a robot to which no variable refers is removed from memory. (Calls with and deletions of a deleted robot are undefined behaviour, may silently act on a robot loaded later, and robots that are not deleted explicitly stay in memory: violated. Deleting every robot frees all memory.)", "quantifier": "every program and every behaviour of the memory allocator", "why_tests_cant": "undefined behaviour and memory reuse cannot be tested", "anchors": ["src/matlab/load_model.cc", "src/matlab/delete_articulated_body.cc", "matlab/+spatialdyn/ArticulatedBody.m"]}
{"id": "C95", "title": "Operational-space control is stable", "statement": "A body that starts close enough to, and slowly enough at, a configuration where the tracked point is at its goal and the posture goal is that configuration, and then moves under the torques opspace_control answers at every instant (positive gains, gravity compensation, no clipping, no task orientation, no friction), approaches that configuration exponentially with its velocities, although the velocity products are not compensated; such a motion exists for all times. Where the Jacobian of the whole pose does not count as singular around the configuration, the same holds for position and orientation goals together.", "quantifier": "every tree with positive definite inertia, every goal configuration where the controlled motion of the end effector is possible in every direction, all positive gains, all initial states near it and unbounded time", "why_tests_cant": "asymptotic behaviour for all times from a continuum of states", "anchors": ["src/python/spatial_dyn.cc (ComputeOpspaceControl)", "spatialdyn/opspace_control.py (opspace_control)", "src/algorithms/opspace_dynamics.cc (InverseDynamics, IsSingular)", "src/algorithms/forward_dynamics.cc (ForwardDynamics)"]}
{"id": "C96", "title": "Repeated operational-space control with an integration step reaches the goal", "statement": "Calling opspace_control with an integration step dt again and again, from a state close to the goal configuration and with dt not too large, never fails and brings the body to the goal configuration exponentially in k*dt with constants that do not depend on dt and k; after finitely many calls every status word reports position (and, for the whole pose, orientation) and velocities as converged, whatever the nonzero thresholds, and whether the Jacobian is singular.", "quantifier": "every tree with positive definite inertia, every such goal configuration, all positive gains, nonzero thresholds, all small steps, all states near the goal and any number of calls", "why_tests_cant": "unboundedly many calls and a continuum of states and steps", "anchors": ["src/python/spatial_dyn.cc (ComputeOpspaceControl)", "spatialdyn/opspace_control.py (opspace_control)", "src/algorithms/simulation.cc (Integrate)"]}
{"id": "C97", "title": "Links changed from Python are honoured", "statement": "The Python attributes ab.rigid_bodies, its elements' joint, inertia and T_to_parent, the loads and inertia_base hand out the objects inside the body, so a program can assign to them. After such an assignment every query answers as a body newly constructed from the changed links and with the same state. (Violated: no cache is cleared, so a mass matrix or a world pose that was read before keeps its old value. Limits and friction may be changed at any time, the rest while no query has been answered since q last changed; a later set_q that changes q repairs every answer.)", "quantifier": "every Python program, of any length, that mixes calls and assignments to the links, loads and base inertia of a body", "why_tests_cant": "histories of unbounded length; the outcome depends on which queries were answered before the assignment", "anchors": ["src/python/spatial_dyn.cc (ArticulatedBody.rigid_bodies, RigidBody, Joint, SpatialInertiad properties)", "src/structs/articulated_body.cc (rigid_bodies, ClearDynamicsCache)"]}
{"id": "C98", "title": "Assignments from Python keep links legal", "statement": "In every Python program that passes legal joints and assigns no NaN, the joint limits of every link stay ordered and its friction coefficients nonnegative, whatever assignments are rejected on the way; masses stay nonnegative. (Violated for masses: rb.inertia.mass = -1 writes the field directly and is not checked, and the mass matrix becomes negative.) An assignment is rejected if and only if the index is not one of the list, the mass of an assigned inertia is negative, or the joint setter refuses.", "quantifier": "every Python program, of any length, that mixes calls and assignments to links", "why_tests_cant": "unbounded programs", "anchors": ["src/python/spatial_dyn.cc (RigidBody.inertia, SpatialInertiad.mass, Joint properties)", "src/structs/rigid_body.cc (set_inertia)", "src/structs/joint.cc"]}
{"id": "C99", "title": "Objects returned to Python", "statement": "What a function of the module returned keeps its value whatever the program does afterwards. ab.q and ab.dq do not: they are views and always read as the current state. A link or a load kept in a variable is the link or load of the body, assignments to it included, until add_rigid_body moves the vector of links or the load is cleared; afterwards any use is undefined behaviour.", "quantifier": "every Python program of any length after the object was obtained, every choice of the standard library when to move the vector", "why_tests_cant": "aliasing over unbounded programs; use after free often looks right in a test", "anchors": ["src/python/spatial_dyn.cc (ArticulatedBody.q, dq, rigid_bodies, inertia_load, add_rigid_body)", "src/structs/articulated_body.cc (AddRigidBody, ClearLoad)"]}
{"id": "C100", "title": "Nullspace argument of Python's opspace.inverse_dynamics", "statement": "Without N, or with a number for N, the function returns the torques of the C++ function without a nullspace. With a matrix N it returns the torques of the C++ function for that nullspace and updates N, so that tasks solved one after the other, starting with N = np.eye(ab.dof), do not disturb each other. Arrays with one or three dimensions are refused. (Violated for objects that numpy converts, such as an integer array or a list of lists: the update goes to a temporary copy, so the tasks are not prioritised. The empty matrix, with which C++ callers start, is never answered.)", "quantifier": "every body in every state, every list of tasks, of any length, and every kind of object passed for N", "why_tests_cant": "all stacks of tasks; the loss of the update is silent", "anchors": ["src/python/spatial_dyn.cc (opspace.inverse_dynamics)", "src/algorithms/opspace_dynamics.cc (InverseDynamics)"]}
{"id": "C101", "title": "The Python example program stops at its goal", "statement": "apps/opspace/opspace.py runs its control loop until the goal is reached: when the program ends by itself, the tip is within the position threshold of the goal. (Violated: `converged` is a status word and the program breaks as soon as any bit is set; the velocity bits are set at rest. For every robot at rest the program ends after the first cycle, 0.2 m from its goal.) A cycle is the last one if and only if one of the position error, the velocity, the orientation error or the angular velocity is below its threshold, or the Jacobian is singular.", "quantifier": "every robot with definite inertia, every home configuration and time step, any number of cycles", "why_tests_cant": "universal over robots and configurations; the program prints no error", "anchors": ["apps/opspace/opspace.py (main)", "spatialdyn/opspace_control.py (opspace_control)"]}
{"id": "C102", "title": "A robot loaded from URDF survives saving", "statement": "A body loaded from a URDF file and written as a JSON document is read back with the same links, names, graphics and base, and every query answers the same. Written as text (as pickling in Python does) it is read back as well. (Violated for the text: a continuous joint, a joint without limits and a fixed joint that was not merged have infinite limits, which the text form cannot hold, so reading it raises.)", "quantifier": "every well-formed robot description, both settings of simplify", "why_tests_cant": "ranges over all trees of links and all numbers", "anchors": ["src/parsers/urdf.cc", "src/parsers/json.cc", "src/python/spatial_dyn.cc (py::pickle)"]}
{"id": "C103", "title": "Dynamics of a loaded robot are well defined", "statement": "For a robot description in which every moving link has mass and a positive-definite tensor, the loaded body has a positive-definite joint-space inertia in every state and with every physical load, and inverse dynamics of the acceleration that forward dynamics returns gives the torques passed in. (Violated with simplify = false: a fixed joint becomes a degree of freedom whose row of the inertia is zero, and the torque asked for there is never returned.)", "quantifier": "every well-formed robot description, state, torque, force map and load", "why_tests_cant": "ranges over all trees and states; a singular inertia shows only for some descriptions", "anchors": ["src/parsers/urdf.cc", "src/algorithms/inverse_dynamics.cc", "src/algorithms/forward_dynamics.cc"]}
{"id": "C104", "title": "Results returned by reference", "statement": "The C++ functions that return a reference (Jacobian, Inertia, Gravity, T_to_world, opspace::Inertia, ...) return one that reads as the result of the call, and keeps reading it while further queries are made; changes of state, gravity, loads and base do not alter what it reads, and when the function is called again it reads the new result. (Violated: there is one matrix for the Jacobians of all links and points, and one of each kind for all tasks, so after Jacobian(ab, j) a reference kept from Jacobian(ab, i) reads the Jacobian of j. It is kept through every other query, and through queries of the same point and task. After AddRigidBody, references to links, paths, transforms, composite inertias and Jacobian rows dangle.)", "quantifier": "every reachable body, every function that returns a reference, and any number of calls of any kind made while the reference is held", "why_tests_cant": "aliasing over unbounded histories; a test sees the value right after the call", "anchors": ["src/algorithms/forward_kinematics.cc (Jacobian, LinearJacobian, AngularJacobian)", "src/algorithms/inverse_dynamics.cc (Inertia, Gravity, CentrifugalCoriolis, CompositeInertia)", "src/algorithms/forward_dynamics.cc (InertiaInverse, InertiaInverseAba)", "src/algorithms/opspace_dynamics.cc (Inertia, InertiaInverse, JacobianDynamicInverse)", "src/algorithms/opspace_dynamics_aba.cc (InertiaAba, InertiaInverseAba)", "src/structs/articulated_body.cc (T_to_world, T_to_parent, rigid_bodies, AddRigidBody)"]}
{"id": "C105", "title": "Loads are part of their links", "statement": "Two robots that differ only in how the weight of a link is split between the link and its load give the same answers: joint-space inertia and its inverse, composite inertias, all torques and their derivatives, inverse dynamics, forward dynamics by both methods and operational-space inertias. (The articulated-body operational-space functions ignore loads and answer differently.)", "quantifier": "every pair of reachable robots of any size with the same totals, every such query", "why_tests_cant": "all robots and all splits; a test fixes a few", "anchors": ["src/structs/articulated_body.cc (AddLoad, inertia_load)", "src/algorithms/inverse_dynamics.cc", "src/algorithms/forward_dynamics.cc", "src/algorithms/opspace_dynamics.cc", "src/algorithms/opspace_dynamics_aba.cc"]}
{"id": "C106", "title": "Order of links and neighbours on the base do not matter", "statement": "Links may be added in any order that puts parents first, and several robots on one base do not disturb each other: if one body contains another (same links, parents, joints, poses, inertias and state, and nothing further attached to them), poses, Jacobians, inertia, torques, inverse and forward dynamics (both methods) and operational-space inertia of the contained robot are the same numbers at the corresponding joints, and the inertia coupling to the other joints is zero.", "quantifier": "every pair of reachable bodies of any size related by such a map of links", "why_tests_cant": "the number of trees and orders is unbounded", "anchors": ["src/structs/articulated_body.cc (AddRigidBody)", "src/algorithms/forward_kinematics.cc", "src/algorithms/inverse_dynamics.cc", "src/algorithms/forward_dynamics.cc", "src/algorithms/opspace_dynamics.cc"]}
{"id": "C107", "title": "Units of mass and time, and reversal of time", "statement": "If all masses are multiplied by c, velocities by v and gravity by v^2, the inertia is multiplied by c, all torques by c*v^2, and with torques and forces multiplied by c*v^2 the accelerations of ForwardDynamics and ForwardDynamicsAba by v^2. In particular every frictionless motion can be run backwards.", "quantifier": "every pair of reachable robots related by such a rescaling, all nonzero c, all v; every motion on every interval", "why_tests_cant": "a law between results for infinitely many inputs", "anchors": ["src/algorithms/inverse_dynamics.cc", "src/algorithms/forward_dynamics.cc", "src/algorithms/simulation.cc"]}
{"id": "C108", "title": "Registry of robots and objects", "statement": "After any sequence of register and unregister calls of redisgl the Redis database holds exactly the resources, namespaces, objects and robots registered last and not unregistered, each under its own key whatever the names, and everything else in the database is as before. (Namespaces that contain the separator collide.)", "quantifier": "every sequence of calls, every database to start with, all names", "why_tests_cant": "unboundedly many calls and names; the collision needs two namespaces", "anchors": ["apps/redisgl/redisgl.py (register_*, unregister_*, ModelKeys)"]}
{"id": "C109", "title": "Published descriptions can be read", "statement": "What redisgl publishes about an object is read by the JSON parser of the library as the pictures described, what it publishes about a robot as the same robot; a pose written as a dictionary is read back. (A robot with an unbounded joint is published with null limits, which the parser refuses; Pose.from_dict raises for every pose.)", "quantifier": "every object with any number of pictures of every shape, every robot", "why_tests_cant": "all descriptions", "anchors": ["apps/redisgl/redisgl.py (to_dict, from_dict)", "src/parsers/json.cc (from_json)", "src/python/spatial_dyn.cc (__str__)"]}
{"id": "C110", "title": "Pictures made with default arguments", "statement": "A redisgl.Graphics made without pose and material is placed at the origin of its link and white, whatever the program did before. (Changing the pose of one such picture in place changes all.)", "quantifier": "every program of constructions and assignments", "why_tests_cant": "depends on what the program did to other objects", "anchors": ["apps/redisgl/redisgl.py (Pose, Material, Graphics)"]}
{"id": "C111", "title": "Which operational-space articulated-body answers count loads", "statement": "Right after any AddLoad, ReplaceLoad or ClearLoad, opspace::InertiaInverseAba, InertiaAba, CentrifugalCoriolisAba and GravityAba answer the same whatever those calls were, namely for the robot without loads. After ForwardDynamicsAba in the same state, opspace::InertiaInverseAba is J A^-1 J^T with the loads in A and J the Jacobian of the origin of the link (the offset argument has no effect).", "quantifier": "every body with any history, any nonempty sequences of calls on loads, all arguments", "why_tests_cant": "the answer depends on which function ran last; all robots and loads", "anchors": ["src/algorithms/opspace_dynamics_aba.cc", "src/structs/articulated_body.cc (AddLoad, ReplaceLoad, ClearLoad)", "src/algorithms/forward_dynamics.cc (ForwardDynamicsAba)"]}
{"id": "C112", "title": "The variational integrator solves its equations", "statement": "For steps below some length the root finding of discrete::Integrate converges: the defects of its successive candidates shrink faster than any given geometric rate, to the only solution of the discrete Euler-Lagrange equations within a fixed distance; for every tolerance some number of iterations always suffices, and the step then ends within C dt tol of that solution. All constants hold for all states and previous configurations within a bound.", "quantifier": "every tree with positive definite inertia without loads, torques, forces, all bounded states reached by any history, all small steps, all tolerances", "why_tests_cant": "a give-up is silent; a continuum of states and steps", "anchors": ["src/algorithms/discrete_dynamics.cc (Integrate)"]}
{"id": "C113", "title": "The variational integrator follows the motion of the robot", "statement": "Calling discrete::Integrate again and again with the same step follows the motion whose accelerations ForwardDynamics answers (gravity as in the options, velocity products, no friction), over any time interval: it never fails, and all positions and velocities stay within C (dt + tol/dt) of the motion, so with a tolerance of the order of dt^2 it is a method of first order.", "quantifier": "every tree with positive definite inertia without loads, all torques and external forces, all initial states just set, all small steps with enough iterations, any number of calls", "why_tests_cant": "convergence is about all small steps and unboundedly many calls; the equations solved are not those of ForwardDynamics", "anchors": ["src/algorithms/discrete_dynamics.cc (Integrate)", "src/algorithms/forward_dynamics.cc (ForwardDynamics)"]}
{"id": "C114", "title": "The variational integrator makes the action stationary", "statement": "Take as action of a path of configurations the sum over its steps of dt times (kinetic energy at the constant velocities that lead every link from one pose to the next, less potential energy at the first configuration). What discrete::InverseDynamics returns, plus the impulse of the external forces, is minus the derivative of the action of the two adjacent steps with respect to the current joint positions; and every run of converged discrete::Integrate steps, of any number, is a path whose action has, with respect to every joint at every inner point, the opposite of the impulse of torque and external forces there as derivative, within the tolerance.", "quantifier": "every tree without loads, all torques and forces at every step, runs of any number of steps with small moves, all joints and points of the path", "why_tests_cant": "a variational principle compares a path with a continuum of others; paths are arbitrarily long", "anchors": ["src/algorithms/discrete_dynamics.cc (InverseDynamics, Integrate)"]}
{"id": "C115", "title": "Energy along the steps of the variational integrator", "statement": "Without torques, external forces and loads, and with gravity, the kinetic plus potential energy after any number of calls of discrete::Integrate within a time T differs from the initial one by at most C (dt + tol/dt).", "quantifier": "every tree with positive definite inertia without loads, all initial states just set, all small steps with enough iterations, any number of calls within T", "why_tests_cant": "about all small steps and unboundedly many calls", "anchors": ["src/algorithms/discrete_dynamics.cc (Integrate)", "src/algorithms/inverse_dynamics.cc (Inertia)"]}
{"id": "C116", "title": "Stops at joint limits", "statement": "In a build with JOINT_LIMITS defined, Integrate with joint_limits: Heun's method and Runge-Kutta never fail, leave the state of the textbook scheme with the accelerations of the stops added, within the limits; Euler's method works as well. The stops add what torques at the joints at their limits would add, do nothing when no joint is driven outward, never pull, and let no joint at a limit be accelerated outward. Without joint_limits the symbol makes no difference.", "quantifier": "every tree with positive definite inertia, all limits, states, torques, external forces, time steps, any number of joints at limits, every exact solver of the quadratic program", "why_tests_cant": "all combinations of joints at limits, each a quadratic program in all couplings; the branch is not compiled in any test", "anchors": ["src/algorithms/simulation.cc (JointLimitImpulse, Integrate)"]}
{"id": "C117", "title": "Robots whose joints all slide", "statement": "On a robot all of whose joints are prismatic the inertia matrix and the torques against gravity are the same in every state and there are no centrifugal and Coriolis torques. Integrate without friction and joint limits is exact: with every method and every step size, any number of calls under the same torques and external forces move the joints as constant accelerations do over the whole time.", "quantifier": "every reachable tree of prismatic joints with positive definite inertia (mounted in any pose, with any loads, base and gravity), every state, torques, forces, step and number of calls", "why_tests_cant": "an exact identity in every state and for every method, step and number of steps", "anchors": ["src/structs/articulated_body.cc", "src/algorithms/inverse_dynamics.cc", "src/algorithms/forward_dynamics.cc", "src/algorithms/simulation.cc", "src/structs/joint.cc"]}
{"id": "C118", "title": "Inverse kinematics reaches its goal on sliding robots", "statement": "On a robot whose joints all slide and can move the point in all three directions, InverseKinematics finds joint positions that meet the goal, whenever the goal asks for the orientation the last link has: from rest at a distance of up to 10^p metres (p <= 33) within 260 (p + 5) iterations, from a moving start within as many as the bound 0.99104^m on the error asks. If the goal asks for another orientation, all 10000 iterations are spent, and the point is still brought to the goal.", "quantifier": "every reachable tree of prismatic joints with positive definite inertia whose linear Jacobian at the point has rank three, every state, goal, point and link, every PseudoInverse that inverts regular and flags singular matrices", "why_tests_cant": "speaks of the number of iterations for all robots and goals; tests try a few goals", "anchors": ["src/algorithms/inverse_kinematics.cc", "src/algorithms/opspace_dynamics.cc", "src/algorithms/simulation.cc"]}
{"id": "C119", "title": "Computed-torque control is exact", "statement": "A program that every cycle asks InverseDynamics for the torques of the accelerations it wants and applies them with Integrate (Euler's method, no friction, no joint limits) never fails, and every joint moves exactly as if it alone had that acceleration for the step: positions by dt*dq + dt^2/2*a, velocities by dt*a, whatever gravity, velocity products, loads and external forces. If the accelerations correct the deviation from a reference motion with gains kp, kv, the deviation tends to zero from every state when 0 < kp, kp*dt < 2*kv and kv*dt < 2 at every joint; for a fixed goal these conditions are also necessary.", "quantifier": "every tree with positive definite inertia, every history, state, policy, sequence of external forces, step, gains, and unboundedly many cycles", "why_tests_cant": "asymptotic behaviour from every state; the boundary of stability is an exact inequality", "anchors": ["src/algorithms/inverse_dynamics.cc (InverseDynamics)", "src/algorithms/simulation.cc (Integrate)", "src/algorithms/forward_dynamics.cc (ForwardDynamics)"]}
{"id": "C120", "title": "Joint-space control of sliding robots settles exactly for these gains and steps", "statement": "Calling joint_space_control with an integration step dt again and again takes a robot whose joints all slide to the goal, with velocities tending to zero, from every state if and only if 0 < kp, kp*dt < 2*kv and kv*dt < 2; with the default gains if and only if dt < 0.2.", "quantifier": "every tree of prismatic joints with positive definite inertia, every history, goal, gains, step, start, and unboundedly many calls", "why_tests_cant": "asymptotic behaviour from every state; the boundary of stability is an exact inequality", "anchors": ["spatialdyn/joint_space_control.py", "src/algorithms/simulation.cc (Integrate)", "src/algorithms/inverse_dynamics.cc (InverseDynamics)"]}
{"id": "C121", "title": "The program that shows a URDF file publishes the robot in it", "statement": "apps/redisgl/main.py, given any description of a robot, registers the directory (or the given path) as resource, the namespace dyn, and the robot loaded from the file, with its pictures at the described poses; its entry names a key under which there is one zero for every moving joint. Nothing else in the database changes, resources registered before stay, and if the program fails nothing has changed; it fails only if the file cannot be loaded or the key of the resources holds a text. The library reads the published description as the robot that was loaded. A database that holds a registry holds the registry with these entries added.", "quantifier": "every consistent URDF description (any number of links, visuals and joints), every prior content of the database, every path", "why_tests_cant": "all descriptions and databases; entries could collide for particular names", "anchors": ["apps/redisgl/main.py (main)", "apps/redisgl/redisgl.py", "src/parsers/urdf.cc (LoadModel)", "src/structs/joint.cc"]}
{"id": "C122", "title": "Documents that are refused halfway", "statement": "When from_json or the YAML decoder, reading into an existing body, throws, the body is exactly as if a shorter document had been read: the first few of the entries name, graphics, T_base_to_world, inertia_base, or all of these and the links before the first one that is refused. So it is a legal body, to which all other properties apply, and the links, joint positions and velocities, loads and gravity it had before are there at the same indices. (Violated: that a refused document changes nothing; true only when nothing precedes the refused entry.)", "quantifier": "every document, every legal body read into, both formats", "why_tests_cant": "the state after an exception depends on where among arbitrarily many entries and links the document is wrong", "anchors": ["src/parsers/json.cc: from_json(ArticulatedBody)", "src/parsers/yaml.cc: convert<ArticulatedBody>::decode", "src/structs/articulated_body.cc: AddRigidBody, set_inertia_base, set_T_base_to_world"]}
{"id": "C123", "title": "Forward dynamics is the least constraint", "statement": "Among all joint accelerations, those that ForwardDynamics returns make the function of Gibbs and Appell (half the sum of acceleration times momentum over the links, with minus gravity as acceleration of the base, plus the power of the gyroscopic forces, minus the power of joint torques and external forces) as small as possible, and no others do (Gauss's principle of least constraint). At other accelerations it is larger by half the inertia form of the difference. The same holds for ForwardDynamicsAba if gravity is off or the base is not turned against it.", "quantifier": "every reachable robot with positive definite inertia and any loads, every state, torques, external forces, with and without gravity and velocity products, and all joint accelerations compared with", "why_tests_cant": "a minimum over a continuum of accelerations, for all robots", "anchors": ["src/algorithms/forward_dynamics.cc (ForwardDynamics, ForwardDynamicsAba)", "src/algorithms/inverse_dynamics.cc (Inertia)", "src/structs/articulated_body.cc"]}
{"id": "C124", "title": "Operational-space control leaves free what the tasks do not ask for", "statement": "Of all joint accelerations with the same task acceleration, those that result from the torques of opspace::InverseDynamics are the closest, in the metric of Inertia, to the accelerations without these torques, whatever the options. The same holds for the torques of a stack of prioritised tasks of any height, with all tasks of the stack. JacobianDynamicInverse turns a task velocity into the joint velocities of least kinetic energy that have it, and that energy is the one opspace::Inertia gives.", "quantifier": "every reachable robot with positive definite inertia, all tasks, stacks of any height, all options, other torques and forces, and all joint accelerations compared with", "why_tests_cant": "a minimum over a continuum, stacks of any height", "anchors": ["src/algorithms/opspace_dynamics.cc (InverseDynamics, JacobianDynamicInverse, Inertia)", "src/algorithms/forward_dynamics.cc (ForwardDynamics)"]}
{"id": "C125", "title": "Reciprocity and superposition", "statement": "Without friction the accelerations of ForwardDynamics respond linearly to torques and external forces: equal changes cause equal responses from any starting point, with or without gravity and velocity products, and sums and multiples of changes cause sums and multiples of responses. The power of one change on the response to a second equals the power of the second on the response to the first, so a force at link A moves link B as the same force at link B moves link A. No change is answered by a motion against it. ForwardDynamicsAba responds the same way, on any base.", "quantifier": "every reachable robot with massive links and positive definite inertia, every state, and all pairs of changes of torques and external forces at any links", "why_tests_cant": "relations between results for all pairs of inputs", "anchors": ["src/algorithms/forward_dynamics.cc (ForwardDynamics, ForwardDynamicsAba)", "src/algorithms/inverse_dynamics.cc (ExternalTorques, Inertia)"]}
{"id": "C126", "title": "Loads make a robot heavier", "statement": "AddLoad adds to the form of Inertia exactly twice the kinetic energy of the load, so in no direction is the robot lighter than before. The same change of torques and external forces then does no more power on its response than before, and opspace::Inertia of any task is no smaller in any direction.", "quantifier": "every reachable robot with positive definite inertia and any loads, every physical load with mass, every link (also with negative index), every state, change of torques and forces, and task", "why_tests_cant": "inequalities between matrices, for all directions and robots", "anchors": ["src/structs/articulated_body.cc (AddLoad)", "src/algorithms/inverse_dynamics.cc (Inertia)", "src/algorithms/forward_dynamics.cc (ForwardDynamics)", "src/algorithms/opspace_dynamics.cc (Inertia)"]}
{"id": "C127", "title": "Sizes of vector arguments", "statement": "A joint vector of the wrong size is refused wherever one is passed, and one with an entry per joint is used entry by entry. set_q and set_dq accept exactly the vectors with one entry per joint and are otherwise without effect. (Violated everywhere else: nothing is checked. The kinematic functions that take q use only the entries of the link and its ancestors; a vector that does not reach the link is undefined behaviour, a longer one gives the right result. Too few torques or accelerations are undefined behaviour. Too many give the result of the leading ones in ForwardDynamicsAba and Integrate with aba, and are undefined behaviour in ForwardDynamics and Integrate without; in InverseDynamics it depends on what was asked before in the same state.)", "quantifier": "every reachable body, every link and point, vectors of every size", "why_tests_cant": "sizes and histories are unbounded, and undefined behaviour may look right in a test", "anchors": ["src/algorithms/forward_kinematics.cc (Position, Orientation, CartesianPose, Jacobian)", "src/structs/articulated_body.cc (set_q, set_dq, T_to_world)", "src/algorithms/inverse_dynamics.cc (InverseDynamics, Friction)", "src/algorithms/forward_dynamics.cc (ForwardDynamics, ForwardDynamicsAba)", "src/algorithms/simulation.cc (Integrate)", "src/algorithms/discrete_dynamics.cc (InverseDynamics, Integrate)"]}
{"id": "C128", "title": "Optional q of the Python functions, and the array of hessian", "statement": "In Python, passing the current positions as q to position, orientation, jacobian, linear_jacobian, angular_jacobian or T_to_parent gives what leaving q out gives. linear_jacobian and angular_jacobian are the halves of jacobian with the same arguments, and the argument offset of angular_jacobian has no effect. hessian returns an array of shape (n, n, 6) whose entry [j, l, r] is component r of entry (j, l) of the Hessian.", "quantifier": "every reachable body of any number of joints, every link, point and history", "why_tests_cant": "the layout has to be right for every number of joints, and the cached offset of the angular half depends on the history", "anchors": ["src/python/spatial_dyn.cc (position, orientation, jacobian, linear_jacobian, angular_jacobian, hessian, T_to_parent)", "src/algorithms/forward_kinematics.cc (AngularJacobian, Hessian)"]}
{"id": "C129", "title": "The variational integrator is symplectic", "statement": "Take a closed loop of states of a robot without loads and call discrete::Integrate repeatedly from each of them, with the same torques and step length and no external forces, every step converged, the moves in a step small. The integral of momentum times change of position around the loop (Poincare's invariant, the momentum of a joint being the derivative of the action of the last step in its position) is the same after every number of steps, within the tolerance of the root finding times the lengths of the loops passed.", "quantifier": "every reachable body of any tree of joints, every smooth loop of initial states, any torques that vary with the step, with and without gravity, any number of steps", "why_tests_cant": "a statement about a continuum of runs of any length", "anchors": ["src/algorithms/discrete_dynamics.cc (InverseDynamics, Integrate)"]}
{"id": "C130", "title": "One body, several threads", "statement": "Threads that each work on bodies of their own, and look at further bodies only through queries that were all made there before sharing (transforms, positions and orientations of any links, the Jacobians of one link and point, gravity, Coriolis, inertia and its inverses, the operational-space quantities of one task, and queries that take q as an argument), never race: each gets the results it would get alone, its bodies end as they would alone, the shared bodies do not change. For const queries in general this does not hold: InverseDynamics, ForwardDynamics and ExternalTorques on one body in two threads are data races for every body and all arguments, as are Jacobians of two points, any query made for the first time since set_q, and set_q beside a query.", "quantifier": "any number of threads with any finite lists of calls on any number of bodies, every interleaving of the single reads and writes of members", "why_tests_cant": "tests run few interleavings, and data races seldom show", "anchors": ["src/structs/articulated_body.cc (set_q, T_to_parent, T_to_world, mutable cache_)", "src/algorithms/forward_kinematics.cc (Jacobian)", "src/algorithms/inverse_dynamics.cc (InverseDynamics, CentrifugalCoriolis, Gravity, ExternalTorques, Inertia)", "src/algorithms/forward_dynamics.cc (ForwardDynamics, InertiaInverse, InertiaInverseAba)", "src/algorithms/opspace_dynamics.cc (InertiaInverse, Inertia, JacobianDynamicInverse)"]}
{"id": "C131", "title": "Orientations given and answered as quaternions", "statement": "set_T_to_parent(ori, pos) and set_T_base_to_world(ori, pos) with a unit quaternion q put the point x of the link (base) at q x q* + pos in the parent (world), and keep the body one to which all other properties apply; two unit quaternions mean the same pose iff they are equal or opposite. Orientation answers a unit quaternion, q x q* being the difference of Position(x) and Position(0); a link just added is answered with its parent's quaternion times the one it was given, up to sign. The conversion never divides by zero. (Violated: quaternions that are not unit are neither refused nor normalised and deform the link, distances between its points change; and the answer of Orientation jumps to the opposite quaternion somewhere on every full turn of every turning joint before the link. NearQuaternion chooses the sign next to a reference.)", "quantifier": "every quaternion, position and rigid body, every reachable body, link and joint positions; continuity for every link and every turning joint on its path", "why_tests_cant": "all real quaternions; jumps happen at isolated joint positions", "anchors": ["include/spatial_dyn/structs/rigid_body.h (set_T_to_parent)", "include/spatial_dyn/structs/articulated_body.h (set_T_base_to_world)", "src/algorithms/forward_kinematics.cc (Orientation)", "src/python/spatial_dyn.cc (orientation, NearQuaternion)"]}
{"id": "C132", "title": "Shorter steps make the variational integrator more accurate", "statement": "With its default tolerance and number of iterations, or any fixed ones, discrete::Integrate called repeatedly comes as close as wanted to the motion of the body given by ForwardDynamics if the step is short enough. (Violated, for every body some joint of which accelerates: the tolerance is an impulse that does not depend on the step, so that for short steps the starting guess of the root finding is accepted as it is, and the guesses alone move the body with two thirds of its accelerations; the velocities stay wrong by a fixed amount however short the step. The tolerance has to shrink with the step.)", "quantifier": "every reachable unloaded body with positive definite inertia, torques, external forces, gravity on or off, tolerance and number of iterations; all step lengths below a bound and all numbers of steps in a time interval", "why_tests_cant": "a limit over all step lengths; any single run looks plausible", "anchors": ["src/algorithms/discrete_dynamics.cc (Integrate)", "include/spatial_dyn/structs/options.h (variational_epsilon)"]}
{"id": "C133", "title": "Merging links below fixed joints changes nothing else", "statement": "A robot loaded from a URDF file with simplify = true is the robot loaded with simplify = false with the links below fixed joints merged into the links they are welded to: links with the same name are at the same place for the same joint positions, merged links are at a fixed place on the link they are part of, a point of a merged link has the same Jacobian, Inertia, CentrifugalCoriolis, Gravity, ExternalTorques and InverseDynamics agree at the moving joints (and are zero at the fixed ones, friction apart), and the accelerations ForwardDynamics answers for the merged robot are exactly those that need the given torques in the unmerged one.", "quantifier": "every description with distinct non-empty names and one root, with any tree of fixed and moving joints; every pair of reachable bodies in corresponding states; any points, torques, external forces, accelerations and options", "why_tests_cant": "two loadings of the same file over all files, all states and all inputs", "anchors": ["src/parsers/urdf.cc (LoadModel, simplify)", "src/algorithms/forward_kinematics.cc", "src/algorithms/inverse_dynamics.cc", "src/algorithms/forward_dynamics.cc", "src/structs/articulated_body.cc"]}
{"id": "C134", "title": "Mirror images, and other units of length", "statement": "Take a robot whose lengths are l times those of another one of the same masses, or which is its mirror image in coordinate planes, or both, in corresponding states: every link is at the image of the place of its counterpart, the Jacobian of the image of a point is the image of the Jacobian, Inertia, CentrifugalCoriolis, Gravity, ExternalTorques and InverseDynamics are multiplied by l squared over the factor of the joint position (l for sliding joints, -1 for joints that move backwards in the mirror), corresponding torques and forces cause corresponding accelerations with either solver, and Integrate with any method and step size keeps the two in corresponding states for ever, as do the exact motions.", "quantifier": "every pair of reachable bodies, one the image of the other under a scaling by any positive number and any reversal of coordinate axes; all states, torques, external forces, options (friction: mirror images only), methods, step sizes and numbers of steps", "why_tests_cant": "two robots over all geometries, states, forces and any number of steps; a sign error in one component of one cross product shows only for particular combinations of axes", "anchors": ["src/algorithms/forward_kinematics.cc", "src/algorithms/inverse_dynamics.cc", "src/algorithms/forward_dynamics.cc", "src/algorithms/simulation.cc", "src/structs/articulated_body.cc"]}
{"id": "C135", "title": "Full turns of a joint change no answer", "statement": "Adding any whole number of turns to the positions of joints that turn changes no answer of the kinematics, Jacobian, inertia, force, inverse- and forward-dynamics queries, nor the operational-space inertias and the singularity test; a simulation started there moves with the same velocities for ever, its positions differing by those turns.", "quantifier": "every reachable body, all positions, any set of turning joints and numbers of turns in either direction, all arguments, methods, step sizes and numbers of steps", "why_tests_cant": "infinitely many positions per joint, over all bodies and any number of steps", "anchors": ["src/algorithms/forward_kinematics.cc", "src/structs/articulated_body.cc", "src/algorithms/inverse_dynamics.cc", "src/algorithms/forward_dynamics.cc", "src/algorithms/opspace_dynamics.cc", "src/algorithms/simulation.cc"]}
{"id": "C136", "title": "How far a robot reaches and how fast its points move", "statement": "A point of a link is at most as far from the base as the offsets of the links below it, the ways their sliders are out and its own distance from the link frame add up to; and one unit of rate of a turning joint moves a point no faster than the same sum over the links after that joint (one of a slider, exactly by one).", "quantifier": "every reachable body, link, point, joint, position", "why_tests_cant": "a bound over all positions and bodies; a test can only fail to find a farther point", "anchors": ["src/algorithms/forward_kinematics.cc", "src/structs/articulated_body.cc"]}
{"id": "C137", "title": "Torques are linear in the inertial parameters", "statement": "For every geometry, state and accelerations there is a matrix, the same for all robots of that geometry, that multiplied with the masses, first moments and second moments (about the link origins) of the links with their loads gives the torques of InverseDynamics, those of the external forces apart; the entries of Inertia, CentrifugalCoriolis and Gravity are linear in these parameters likewise. Robots of the same geometry with the same parameters, however made up of links and loads, have the same Inertia, torques and accelerations.", "quantifier": "every reachable body, all bodies of the same geometry with any inertias and loads, all states, accelerations, external forces and options without friction", "why_tests_cant": "existence of one matrix for a whole family of robots; a test compares finitely many robots", "anchors": ["src/algorithms/inverse_dynamics.cc", "src/algorithms/forward_dynamics.cc", "src/structs/articulated_body.cc"]}
{"id": "C138", "title": "Rounding errors of poses do not build up beyond the length of the chain", "statement": "If every addition, subtraction, product, sine and cosine is right up to a relative error, the poses T_to_world and both overloads of Position computed with them are off by no more than a number that depends on that error and the number of joints up to the link, times the summed lengths of the links (and the offset of the point); computed rotations stay that close to rotations; the two overloads differ by no more than twice the bound. In double precision, up to a million joints, Position is off by no more than 3e-14 of the length of the chain per joint. The error does not depend on angles or on the number of calls.", "quantifier": "every reachable body, link, offset, joint positions, every arithmetic whose operations meet the error bound, both orders of the sums of three", "why_tests_cant": "a test compares one rounding with another; the bound is for all robots and all arithmetics", "anchors": ["src/algorithms/forward_kinematics.cc", "src/structs/articulated_body.cc", "src/structs/joint.cc"]}
{"id": "C139", "title": "Where a robot rests, and when it stays near", "statement": "A robot at rest whose torques are those of InverseDynamics for no acceleration is left as it is by any number of calls of Integrate, whatever the method and the step; only such states are left as they are by all short steps. At a minimum of the potential energy less the work of the torques, the torques are those of Gravity. If the minimum is strict the place is stable: every motion that starts close enough and slowly enough stays as close as wanted for all time, and so do repeated calls of Integrate over any time once the step is short enough.", "quantifier": "every reachable body of positive definite inertia, state, constant torques, method, step, number of calls, duration", "why_tests_cant": "stability is about all later times and all nearby starts; a test runs one start for some time", "anchors": ["src/algorithms/inverse_dynamics.cc", "src/algorithms/forward_dynamics.cc", "src/algorithms/simulation.cc"]}
{"id": "C140", "title": "What friction does to the energy", "statement": "Along any motion simulated with friction, including motions in which joints stop and start, the mechanical energy (half of dq.Inertia.dq plus the potential energy of the links where Position puts them) changes at the power of the torques less the power of the friction that the dynamics apply. If no joint has stiction without Coulomb friction, the energy plus the loss (the integral of viscous coefficient times squared speed plus Coulomb coefficient times speed) stays within the stiction activation speed times the sum of (2 Coulomb + stiction) times the elapsed time of its start plus the work of the torques, exactly so for activation speed zero: friction never adds energy beyond that. A joint with stiction only, which is what the friction attribute of a URDF file sets, breaks the claim: at any speed its friction cancels every smaller force, so that a link thrown upwards rises forever and gains energy without end. At a strict minimum of the potential energy less the work of the torques, motions with friction that start close enough and slowly enough stay as close as wanted.", "quantifier": "every reachable body of positive definite inertia, friction coefficients, constant torques, motion followed forwards, duration; for the violation every sliding robot, method, step and number of calls", "why_tests_cant": "energy balance is about whole motions and all coefficient choices; a test of one friction value sees no trend", "anchors": ["src/algorithms/forward_dynamics.cc", "src/algorithms/inverse_dynamics.cc", "src/algorithms/simulation.cc", "src/parsers/urdf.cc"]}
{"id": "C141", "title": "What a printed robot tells", "statement": "The text a link is printed as determines the link's name, number, parent and joint type, whatever characters the name has; the text of a joint determines its type and what is printed of its limits and friction; repr of a robot in Python determines its name and number of joints. A printed robot has one line with name and number of joints, three with the numbers of its positions, its velocities and gravity in order, and one for each link in order that says name, number, parent and joint type: robots that print alike have the same links connected in the same way, if no name contains a line break. With line breaks in names, different robots print alike.", "quantifier": "every reachable robot, names, texts of numbers without line breaks", "why_tests_cant": "the texts range over all names; a test compares a few outputs", "anchors": ["src/structs/articulated_body.cc operator<<", "src/structs/rigid_body.cc operator<<", "src/structs/joint.cc operator<<", "src/python/spatial_dyn.cc __repr__"]}
{"id": "C142", "title": "Transforms made in Python", "statement": "In the Python module of transforms, entries of linear() and translation() are entries of matrix(): assigning to one changes that entry and no other. Isometry3d takes any matrix as it is. inverse() undoes mdot and fdot exactly for the transforms whose linear part has orthonormal columns and is right-handed or comes without translation; power is preserved exactly if the columns are orthonormal. Nothing enforces this: matrices that stretch are accepted, and one assignment to an entry breaks a rigid transform. A Translation3d is always undone by its inverse and acts as the Isometry3d with the same translation that does not turn.", "quantifier": "every 4x4 and 3x3 matrix, every entry and value assigned, every motion and force", "why_tests_cant": "an exact condition on twelve real entries; a test tries rotations", "anchors": ["src/python/eigen.cc", "include/spatial_dyn/eigen/spatial_motion_base.h", "include/spatial_dyn/eigen/spatial_force_base.h"]}
{"id": "C143", "title": "Robots with viscous friction", "statement": "With viscous friction only, and friction switched on, the simulated robot follows a motion that exists for all times and is the only one from its state, with error C dt^p (p = 1, 2, 4 for the three methods). If all its joints turn and each has some viscous friction, then, left without torques and external forces under gravity, it comes to rest from every state: velocities and accelerations tend to zero, the energy tends to a limit, and the torques answered by Gravity tend to zero. The simulated robot does the same for as long as one likes, up to any given tolerance, if the steps are small enough.", "quantifier": "every robot of definite inertia with viscous friction in its joints, every state, every method, both forward dynamics (with aba only where the base does not turn gravity)", "why_tests_cant": "a limit over unbounded time for every robot and every initial state", "anchors": ["src/algorithms/simulation.cc (Integrate)", "src/algorithms/forward_dynamics.cc (ForwardDynamics, ForwardDynamicsAba)"]}
{"id": "C144", "title": "Dynamics computed with rounding", "statement": "Computed with an arithmetic whose every operation is right up to a relative error u, InverseDynamics, CentrifugalCoriolis, Gravity, ExternalTorques, Inertia, Jacobian, ForwardDynamics and ForwardDynamicsAba answer the exact results of the state up to K u, and any number of calls of Integrate up to N end within K u of the exact calls, for every u below some u0; K and u0 depend on the robot, the torques and a bound on the states, not on the state itself. With n binary digits this holds with u = (1 + 2^-n)^6 - 1. So a simulation stays within C (dt^p + u / dt) of the motion of the robot, with one C for all steps dt, and within any wanted distance if the step is short enough and there are digits enough.", "quantifier": "every robot of definite inertia (any for the claims on torques and Jacobians), every bounded set of states, every arithmetic, every method, every number of steps", "why_tests_cant": "rounding depends on every bit of every input; tests compare a few values with a tolerance chosen to pass", "anchors": ["src/algorithms/inverse_dynamics.cc (InverseDynamics, CentrifugalCoriolis, Gravity, ExternalTorques, Inertia)", "src/algorithms/forward_dynamics.cc (ForwardDynamics, ForwardDynamicsAba, InertiaInverse)", "src/algorithms/forward_kinematics.cc (Jacobian)", "src/algorithms/simulation.cc (Integrate)"]}
{"id": "C145", "title": "Simulations from nearby states, and run backwards", "statement": "Calls of Integrate from a state within e of a motion stay within C (dt^p + e) of that motion, p = 1, 2, 4 for kEuler, kHeuns, kRk4, and within C (dt^p + e + eta) if the torques of the calls are off by up to eta. Without friction and joint limits, k calls, setting the opposite rates, and k more calls come back to the first state with opposite rates up to C dt^p, with one C for all k within the time of the motion; with rounded arithmetic up to C (dt^p + u / dt).", "quantifier": "every robot of definite inertia, every motion, every short enough step, every number of calls, every nearby state, every arithmetic", "why_tests_cant": "tests run a few steps from one state and do not relate runs from different states", "anchors": ["src/algorithms/simulation.cc (Integrate)"]}
{"id": "C146", "title": "Torques that vary with time", "statement": "If the torques of a motion vary with time without jumps, calls of Integrate that are each given the torques at the start of the call, up to eta, from a state within e of the start, stay within C (dt + e + eta) of the motion, with every method. Every smooth reference is the motion under the torques that InverseDynamics answers along it, so a program that applies those torques call by call follows the reference that closely. Calls of Integrate with torques computed from the state before each call, by any smooth law, stay within C (dt + e) of the motion under that law, with viscous friction too. So do calls with torques computed from the time and the state, without friction.", "quantifier": "every robot of definite inertia, every motion, every smooth reference, every short enough step, every number of calls, every small error of start and torques", "why_tests_cant": "tests follow one trajectory with one step; the bound is about all short steps and all errors", "anchors": ["src/algorithms/simulation.cc (Integrate)", "src/algorithms/inverse_dynamics.cc (InverseDynamics)"]}
{"id": "C147", "title": "A joint is easiest to move when the others are free", "statement": "Without friction, raise the torque of one joint by c, let some of the other joints keep their torques and give the rest the torques that keep their accelerations as they were. The more joints are free, the more the driven joint accelerates in the direction of c (by ForwardDynamics or ForwardDynamicsAba); it does so equally only if all joints move alike. With all others held it accelerates by c / Inertia(i, i), with all others free by at least that much and by more if any other joint responds. The same holds for a change of the external forces instead of a torque, measured by its power on the response.", "quantifier": "every reachable robot with positive definite inertia, every joint, torque, state, external force and every two nested sets of free joints", "why_tests_cant": "an inequality over all inertia matrices and subsets of joints", "anchors": ["src/algorithms/forward_dynamics.cc (ForwardDynamics, ForwardDynamicsAba)", "src/algorithms/inverse_dynamics.cc (Inertia)"]}
{"id": "C148", "title": "The demonstration in Python simulates the robot", "statement": "apps/opspace/python/spatial_dyn_opspace.py: in every cycle in which it finds gains and a message of the web page, the program publishes torques and moves the robot by integrate with these torques and the force of the mouse; a resting robot that nobody touches stays at the home configuration under the torques of gravity.", "quantifier": "every robot, home configuration, content of Redis and message in every cycle, and every number of cycles", "why_tests_cant": "all sequences of inputs; the functions a Python program calls are looked up only when it runs", "anchors": ["apps/opspace/python/spatial_dyn_opspace.py (main, pd_control, compute_external_forces, adjust_position)", "src/python/spatial_dyn.cc (opspace submodule)"]}
{"id": "C149", "title": "Bounds that hold in all states", "statement": "For a robot whose joints all turn there are constants, independent of the positions, such that the quadratic form of Inertia lies between two positive multiples of the squared rates, Gravity and ExternalTorques are bounded, CentrifugalCoriolis is bounded by a multiple of the squared velocities, and the answers of ForwardDynamics and InverseDynamics (no friction) by a multiple of one plus the sizes of the torques (accelerations) and the squared velocities; for every task the inverse inertia that opspace::InertiaInverse answers lies between two multiples of the square of the transposed Jacobian. With a joint that slides this is not so.", "quantifier": "every robot with turning joints and definite inertias, all positions, velocities, torques, accelerations and options without friction; external forces fixed in the world", "why_tests_cant": "infinitely many configurations; controllers are proved stable from such constants, which no sample of states can give", "anchors": ["src/algorithms/inverse_dynamics.cc (InverseDynamics, CentrifugalCoriolis, Gravity, ExternalTorques, Inertia)", "src/algorithms/forward_dynamics.cc (ForwardDynamics)", "src/algorithms/opspace_dynamics.cc (opspace::InertiaInverse)", "src/structs/articulated_body.cc (set_q, set_dq)"]}
{"id": "C150", "title": "Speeds grow at most linearly", "statement": "For a robot whose joints all turn, without friction and with the velocity products switched on: there are two constants, the same for all motions and torques, such that the size of the joint velocities after time t is at most a multiple of that at the start plus a multiple of (1 + size of the torques) t; the simulation with Integrate keeps to this up to any given error if the steps are small enough.", "quantifier": "every such robot, initial state, constant torques, external forces fixed in the world, method of integration, time", "why_tests_cant": "a statement about all motions and all times; a simulation shows one motion for a finite time", "anchors": ["src/algorithms/simulation.cc (Integrate)", "src/algorithms/forward_dynamics.cc (ForwardDynamics, ForwardDynamicsAba)"]}
{"id": "C151", "title": "Viscous friction gives a terminal speed", "statement": "For a robot whose joints all turn, each with some viscous friction: there are constants, the same for all motions and torques, such that the size of the joint velocities is at most a multiple of that at the start, which fades exponentially, plus a multiple of (1 + size of the torques), for all times; the simulation with Integrate keeps to this up to any given error if the steps are small enough.", "quantifier": "every such robot, initial state, constant torques, external forces fixed in the world, method of integration, time", "why_tests_cant": "a statement about all motions and all times; a simulation shows one motion for a finite time", "anchors": ["src/algorithms/simulation.cc (Integrate)", "src/algorithms/forward_dynamics.cc (ForwardDynamics, ForwardDynamicsAba)", "src/algorithms/inverse_dynamics.cc (Friction)"]}
{"id": "C152", "title": "Small errors of the state cause small errors of the answers", "statement": "For a robot whose joints all turn there are constants, independent of the positions, such that the answers of Position, Orientation, Jacobian, Gravity and Inertia change by at most a multiple of the change of the positions, and, for velocities up to any given size, CentrifugalCoriolis, InverseDynamics, ForwardDynamics and ForwardDynamicsAba (no friction) by at most a multiple of the change of positions and velocities (times one plus the size of accelerations or torques) plus a multiple of the change of accelerations or torques; the same holds of the accelerations of robots whose friction is viscous. It is not so with a joint that slides, where nearby positions may have inertias as far apart as one likes, nor with Coulomb friction, where Friction jumps by the coefficient between nearby velocities.", "quantifier": "every robot with turning joints and definite inertias, all pairs of states, torques and accelerations; external forces fixed in the world; options without friction", "why_tests_cant": "a statement about all pairs of states with one constant; tests compare finitely many", "anchors": ["src/algorithms/forward_kinematics.cc (Position, Orientation, Jacobian)", "src/algorithms/inverse_dynamics.cc (InverseDynamics, CentrifugalCoriolis, Gravity, Inertia)", "src/algorithms/forward_dynamics.cc (ForwardDynamics, ForwardDynamicsAba)", "src/algorithms/inverse_dynamics.cc (Friction)", "src/structs/articulated_body.cc (set_q, set_dq)"]}
{"id": "C153", "title": "Where a robot rests under proportional control", "statement": "For a robot whose joints all turn, held at rest by torques proportional to the distance from a goal: if what Gravity answers at the goal is added and every gain exceeds a constant, the same for all goals, ForwardDynamics answers zero exactly when the robot is at the goal; without the compensation, every joint of a resting robot is at most a constant over its gain away from the goal; and for all positive gains and all constant torques added there is a position where ForwardDynamics answers zero, only one if the gains exceed a constant.", "quantifier": "every robot with turning joints and definite inertias, all goals, positions and gains; options with gravity and without friction", "why_tests_cant": "that there is no other resting position is a statement about all positions", "anchors": ["src/algorithms/inverse_dynamics.cc (Gravity)", "src/algorithms/forward_dynamics.cc (ForwardDynamics)", "src/structs/articulated_body.cc (set_q, set_dq)"]}
{"id": "C154", "title": "Proportional control with damping brings a robot to its goal", "statement": "A robot whose joints all turn is driven by torques proportional to the distance from a goal and to the velocities, both opposing, with constant torques added, under gravity. From every state there is a motion for all times. Along every such motion velocities and accelerations tend to zero and the torques to those that Gravity answers. If the added torques are what Gravity answers at the goal and every gain of the distance exceeds a constant, the same for all goals, every motion tends to the goal; and calls of Integrate, each with these torques for the state before the call, bring the simulated robot as close to the goal as wanted and keep it there for as long as wanted, if the steps are short enough. Viscous friction, switched on, changes neither, and a joint with friction needs no damping by the control.", "quantifier": "every robot with turning joints and definite inertias, all goals, initial states, positive gains and constant torques, both forward dynamics (with aba only where the base does not turn gravity); no friction, and viscous friction for reaching the goal", "why_tests_cant": "a limit over unbounded time, from every state and for every robot", "anchors": ["src/algorithms/inverse_dynamics.cc (Gravity)", "src/algorithms/forward_dynamics.cc (ForwardDynamics, ForwardDynamicsAba)", "src/algorithms/simulation.cc (Integrate)"]}
{"id": "C155", "title": "Control with compensation of gravity reaches every goal", "statement": "A robot is driven by what Gravity answers at its position, less torques proportional to the distance from a goal and to the velocities. From every state there is a motion for all times, and along every such motion positions tend to the goal and velocities to zero, with any positive gains and whatever the joints; twice the kinetic energy (by Inertia) plus the sum of gain times squared distance never grows, so from rest no joint goes farther from the goal than that sum at the start allows. With viscous friction in the joints, switched on, there are still such motions, all this still holds of them and of simulations, and a joint with friction needs no damping by the control. Calls of Integrate, each with these torques for the state before the call, bring the simulated robot as close to the goal as wanted and keep it there for as long as wanted, if the steps are short enough.", "quantifier": "every robot with definite inertias (joints that turn or slide), all goals, initial states and positive gains, both forward dynamics (with aba only where the base does not turn gravity), every method; no joint limits; friction viscous or none", "why_tests_cant": "a limit over unbounded time, from every state and for every robot", "anchors": ["src/algorithms/inverse_dynamics.cc (Gravity)", "src/algorithms/forward_dynamics.cc (ForwardDynamics, ForwardDynamicsAba)", "src/algorithms/simulation.cc (Integrate)"]}
{"id": "C156", "title": "Computed-torque control follows every reference", "statement": "A robot is driven by the torques that InverseDynamics answers, at its state, for the accelerations of a reference less gains times the errors of position and velocity. From every state there is such a motion for all times, and along every such motion gain times squared error of position plus squared error of velocity of a joint is at most C exp(-lambda t) times its value at the start, with C and lambda > 0 that depend on the gains of that joint alone and not on the robot, the reference or the external forces. Where all joints turn and the torques are only within eta of these, the same holds with C eta^2 added, C now depending on the robot too. A joint that starts on its reference stays on it, wherever the others are; and if a joint's velocity is not corrected its error never dies out. With a smooth reference or a fixed goal, calls of Integrate, each with these torques for the time and state before the call, bring the simulated robot as close to it as wanted and keep it there for as long as wanted, if the steps are short enough.", "quantifier": "every robot with definite inertias, all references with two derivatives, initial states, positive gains and external forces, gravity and velocity products on or off in both, both forward dynamics (with aba only where the base does not turn gravity), every method; no friction and joint limits", "why_tests_cant": "an exponential rate over unbounded time, the same for every robot and reference", "anchors": ["src/algorithms/inverse_dynamics.cc (InverseDynamics)", "src/algorithms/forward_dynamics.cc (ForwardDynamics, ForwardDynamicsAba)", "src/algorithms/simulation.cc (Integrate)"]}
