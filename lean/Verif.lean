import Verif.Model.Spatial
import Verif.Model.Joint
import Verif.Model.Loops
import Verif.Lemmas.Loops
import Verif.Lemmas.Spatial
import Verif.Lemmas.Calculus
import Verif.Props.Spatial
import Verif.Props.Joint
import Verif.Model.Dynamics
import Verif.Spec.World
import Verif.Lemmas.World
import Verif.Lemmas.Rnea
import Verif.Lemmas.Crba
import Verif.Model.ForwardDynamics
import Verif.Lemmas.Aba
import Verif.Lemmas.Positive
import Verif.Model.Body
import Verif.Model.Kinematics
import Verif.Model.InertiaInverseAba
import Verif.Model.Ext
import Verif.Model.Opspace
import Verif.Lemmas.Tree
import Verif.Model.Simulation
import Verif.Model.Discrete
import Verif.Model.Derivatives
import Verif.Model.Machine
import Verif.Spec.Fresh
import Verif.Lemmas.Coherence
import Verif.Lemmas.AbaCache
import Verif.Lemmas.Steps
import Verif.Lemmas.OpsSteps
import Verif.Lemmas.Reach
import Verif.Lemmas.Same
import Verif.Lemmas.Demo
import Verif.Props.Tree
import Verif.Props.Index
import Verif.Lemmas.Transparent
import Verif.Spec.Pose
import Verif.Lemmas.Pose
import Verif.Lemmas.Rebuild
import Verif.Props.Cache
import Verif.Spec.Traj
import Verif.Lemmas.Motion
import Verif.Lemmas.Kin
import Verif.Lemmas.Hess
import Verif.Props.Kinematics
import Verif.Spec.Mechanics
import Verif.Lemmas.Mechanics
import Verif.Props.Dynamics
import Verif.Props.Energy
import Verif.Props.Forward
import Verif.Lemmas.InvAba
import Verif.Props.InertiaInverse
import Verif.Props.Friction
import Verif.Model.Store
import Verif.Lemmas.InertiaBase
import Verif.Lemmas.Store
import Verif.Props.Copy
import Verif.Spec.Scheme
import Verif.Lemmas.Integrate
import Verif.Props.Integrate
import Verif.Spec.Opspace
import Verif.Lemmas.Tol
import Verif.Lemmas.DMatrix
import Verif.Lemmas.Tasks
import Verif.Lemmas.OpsAns
import Verif.Props.Opspace
import Verif.Props.OpsCache
import Verif.Lemmas.OpsPass
import Verif.Props.OpsAba
import Verif.Props.OpsAbaWitness
import Verif.Props.OpsAbaFlyer
import Verif.Props.OpsAbaLoads
import Verif.Props.OpsAbaOffset
import Verif.Lemmas.DVel
import Verif.Props.Derivatives
import Verif.Spec.Discrete
import Verif.Lemmas.DiscreteFrame
import Verif.Lemmas.Discrete
import Verif.Lemmas.DiscreteReach
import Verif.Props.Discrete
import Verif.Model.Document
import Verif.Spec.Document
import Verif.Lemmas.Document
import Verif.Lemmas.Restore
import Verif.Props.Document
import Verif.Model.Options
import Verif.Spec.Options
import Verif.Props.Options
import Verif.Model.Control
import Verif.Spec.Control
import Verif.Lemmas.Control
import Verif.Props.Control
import Verif.Props.ControlDefaults
import Verif.Props.OpsCoriolis
import Verif.Spec.InverseKin
import Verif.Props.InverseKin
import Verif.Model.Urdf
import Verif.Spec.Urdf
import Verif.Lemmas.UrdfSort
import Verif.Lemmas.UrdfMerge
import Verif.Lemmas.UrdfAdd
import Verif.Lemmas.UrdfRead
import Verif.Lemmas.UrdfLoad
import Verif.Props.Urdf
import Verif.Props.UrdfWitness
import Verif.Spec.Posture
import Verif.Lemmas.Posture
import Verif.Props.Posture
import Verif.Lemmas.Lagrange
import Verif.Props.Lagrange
import Verif.Props.Frame
import Verif.Spec.Accept
import Verif.Lemmas.Accept
import Verif.Props.Accept
import Verif.Lemmas.Smooth
import Verif.Lemmas.Field
import Verif.Lemmas.OneStep
import Verif.Lemmas.RungeKutta
import Verif.Lemmas.Converge
import Verif.Lemmas.OdeGlobal
import Verif.Spec.Flow
import Verif.Lemmas.Flow
import Verif.Lemmas.Growth
import Verif.Lemmas.Drift
import Verif.Props.Converge
import Verif.Lemmas.Lyapunov
import Verif.Lemmas.Frozen
import Verif.Lemmas.Loop
import Verif.Spec.Loop
import Verif.Lemmas.LoopCode
import Verif.Props.ClosedLoop
import Verif.Model.Matlab
import Verif.Spec.Matlab
import Verif.Lemmas.Matlab
import Verif.Props.Matlab
import Verif.Props.MatlabDiscrete
import Verif.Props.MatlabArgs
import Verif.Props.PyDefaults
import Verif.Props.DiscreteMomentum
import Verif.Model.App
import Verif.Spec.App
import Verif.Spec.PySim
import Verif.Lemmas.App
import Verif.Props.App
import Verif.Model.MatlabSession
import Verif.Spec.MatlabSession
import Verif.Lemmas.MatlabSession
import Verif.Props.MatlabSession
import Verif.Props.MatlabMemory
import Verif.Lemmas.Cascade
import Verif.Lemmas.TaskLoop
import Verif.Lemmas.TaskPlant
import Verif.Lemmas.Steer
import Verif.Spec.TaskLoop
import Verif.Lemmas.TaskCode
import Verif.Lemmas.TaskSteer
import Verif.Props.TaskLoop
import Verif.Model.PyObjects
import Verif.Spec.PyObjects
import Verif.Lemmas.PyObjects
import Verif.Props.PyObjects
import Verif.Model.PyOpspace
import Verif.Props.PyOpspace
import Verif.Model.PyApp
import Verif.Model.PySim
import Verif.Props.PyApp
import Verif.Props.PySim
import Verif.Lemmas.UrdfProper
import Verif.Props.UrdfModel
import Verif.Model.Refs
import Verif.Spec.Refs
import Verif.Lemmas.Keep
import Verif.Lemmas.Refs
import Verif.Props.Refs
import Verif.Spec.Alike
import Verif.Lemmas.Alike
import Verif.Props.Alike
import Verif.Spec.Embed
import Verif.Lemmas.Embed
import Verif.Props.Embed
import Verif.Spec.Rescale
import Verif.Lemmas.Rescale
import Verif.Props.Rescale
import Verif.Model.Redisgl
import Verif.Spec.Redisgl
import Verif.Lemmas.Redisgl
import Verif.Props.Redisgl
import Verif.Model.RedisglApp
import Verif.Props.RedisglApp
import Verif.Model.DocumentState
import Verif.Spec.DocumentState
import Verif.Props.DocumentState
import Verif.Spec.NearLog
import Verif.Lemmas.NearLog
import Verif.Lemmas.RootFind
import Verif.Lemmas.Newton
import Verif.Props.RootFind
import Verif.Lemmas.Peano
import Verif.Lemmas.Expand
import Verif.Lemmas.StepExpand
import Verif.Lemmas.LogStep
import Verif.Lemmas.LocalStep
import Verif.Spec.DiscreteFlow
import Verif.Lemmas.Track
import Verif.Props.DiscreteConverge
import Verif.Props.FrictionAba
import Verif.Lemmas.ExpMap
import Verif.Spec.TrueLog
import Verif.Lemmas.TrueLog
import Verif.Lemmas.LogExists
import Verif.Props.TrueLog
import Verif.Spec.DiscreteAction
import Verif.Lemmas.DiscreteAction
import Verif.Props.DiscreteAction
import Verif.Props.DiscreteEnergy
import Verif.Model.JointLimits
import Verif.Spec.JointLimits
import Verif.Lemmas.JointLimits
import Verif.Props.JointLimits
import Verif.Spec.Sliding
import Verif.Lemmas.Sliding
import Verif.Props.Sliding
import Verif.Spec.ComputedTorque
import Verif.Lemmas.Jury
import Verif.Props.ComputedTorque
import Verif.Spec.LeastConstraint
import Verif.Props.LeastConstraint
import Verif.Props.LeastEnergy
import Verif.Props.Response
import Verif.Props.Heavier
import Verif.Model.Vectors
import Verif.Lemmas.Vectors
import Verif.Props.Vectors
import Verif.Spec.Circulation
import Verif.Lemmas.Circulation
import Verif.Props.Circulation
import Verif.Model.Memory
import Verif.Spec.Threads
import Verif.Lemmas.Threads
import Verif.Lemmas.ThreadsRun
import Verif.Lemmas.ThreadsOps
import Verif.Lemmas.ThreadsShare
import Verif.Lemmas.ThreadsWarm
import Verif.Lemmas.ThreadsRace
import Verif.Props.Threads
import Verif.Model.Quaternion
import Verif.Spec.Quaternion
import Verif.Lemmas.Quaternion
import Verif.Lemmas.QuaternionTurn
import Verif.Props.Quaternion
import Verif.Lemmas.Guess
import Verif.Props.ShortSteps
import Verif.Spec.Weld
import Verif.Lemmas.Weld
import Verif.Lemmas.WeldUrdf
import Verif.Props.Weld
import Verif.Spec.Similar
import Verif.Lemmas.Similar
import Verif.Props.Similar
import Verif.Spec.Turns
import Verif.Props.Turns
import Verif.Spec.Params
import Verif.Props.Params
import Verif.Model.Rounding
import Verif.Spec.Rounding
import Verif.Props.Rounding
import Verif.Props.Equilibrium
import Verif.Props.FrictionEnergy
import Verif.Model.Print
import Verif.Props.Print
import Verif.Model.PyEigen
import Verif.Props.PyEigen
import Verif.Lemmas.Settle
import Verif.Lemmas.Damped
import Verif.Props.Damped
import Verif.Model.RoundDynamics
import Verif.Spec.RoundDynamics
import Verif.Lemmas.RoundCalc
import Verif.Lemmas.RoundAlg
import Verif.Lemmas.RoundBody
import Verif.Lemmas.Ldlt
import Verif.Lemmas.RoundSolve
import Verif.Lemmas.RoundStep
import Verif.Props.RoundDynamics
import Verif.Model.Halves
import Verif.Props.Halves
import Verif.Lemmas.Perturb
import Verif.Lemmas.RoundNear
import Verif.Props.Nearby
import Verif.Spec.Hold
import Verif.Lemmas.Hold
import Verif.Props.Hold
import Verif.Spec.Locked
import Verif.Props.Locked
import Verif.Props.Bounds
import Verif.Props.Speed
import Verif.Props.BoundsOps
import Verif.Props.Sensitivity
import Verif.Props.SensitivityKin
import Verif.Props.SensitivityFriction
import Verif.Props.Springs
import Verif.Props.SpringsRest
import Verif.Lemmas.SettleBounded
import Verif.Props.SpringsSettle
import Verif.Spec.Feedback
import Verif.Props.Feedback
import Verif.Props.Compensated
import Verif.Props.CompensatedEnergy
import Verif.Props.CompensatedFriction
import Verif.Props.FeedbackFriction
import Verif.Props.Tracking
import Verif.Props.TrackingSim
import Verif.Props.Pursuit
import Verif.Props.TrackingError
import Verif.Props.TrackingExact
