import Lean.Elab.Tactic.Basic
import Lean.Meta.AppBuilder
/- A tactic for evaluating a closed program inside an equation that has free variables: the goal
`a = b` is closed with `Eq.refl a`, which the kernel checks. -/
namespace Mentat
open Lean Meta Elab Tactic

elab "kernel_rfl" : tactic => do
  let g ← getMainGoal
  let t ← instantiateMVars (← g.getType)
  match t.eq? with
  | some (_, a, _) => g.assign (← mkEqRefl a)
  | none => throwError "kernel_rfl: not an equation"

end Mentat
