import Verif.Model.Machine
import Mathlib.Topology.Instances.Real.Lemmas

/-!
# A program that controls a simulated robot

Every cycle asks `InverseDynamics` for the torques of the accelerations it wants and applies them with
`Integrate`, as the first loop of `src/main.cc` does (there with the default method of `Integrate`).
-/

namespace SpatialDyn
open Filter Topology

/-- What a cycle wants: accelerations, from the number of the cycle and the current positions and
velocities. -/
abbrev Wish := ℕ → List ℝ → List ℝ → ℕ → ℝ

namespace Body

/-- One cycle, with external forces `fext`. -/
noncomputable def torqueCycle (E : Ext) (b : Body) (acc : ℕ → ℝ) (fext : FExt) (o : IntOpts) (dt : ℝ) :
    Out Body :=
  let r := b.inverseDynamics acc fext ⟨o.gravity, o.cc, false, o.eps⟩
  r.2.integrate E r.1 dt fext o

/-- `n` cycles. -/
noncomputable def torqueLoop (E : Ext) (wish : Wish) (fext : ℕ → FExt) (o : IntOpts) (dt : ℝ)
    (b : Body) : ℕ → Out Body
  | 0 => .ok b
  | n + 1 => (torqueLoop E wish fext o dt b n).bind fun b' =>
    b'.torqueCycle E (wish n b'.q b'.dq) (fext n) o dt

/-- The bodies a program passes through come to rest at the goal. -/
def Settles (n : ℕ) (S : ℕ → Body) (goal : ℕ → ℝ) : Prop := ∀ i < n,
  Tendsto (fun k => (S k).q.getD i 0) atTop (𝓝 (goal i)) ∧
  Tendsto (fun k => (S k).dq.getD i 0) atTop (𝓝 0)

end Body

/-- Proportional-derivative accelerations, with gains for every joint. -/
noncomputable def pdWish (kp kv goal : ℕ → ℝ) : Wish := fun _ q dq i =>
  -kp i * (q.getD i 0 - goal i) - kv i * dq.getD i 0

end SpatialDyn
