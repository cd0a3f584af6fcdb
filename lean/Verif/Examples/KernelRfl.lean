import Mathlib.Tactic.Basic

/-! # A tactic for closed computations with free parameters -/

namespace PyQ

open Lean Elab Tactic Meta in
/-- closes `a = b` with the proof term `rfl`, leaving its check to the kernel (as `decide +kernel`
does, but free variables are allowed) -/
elab "kernel_rfl" : tactic => do
  let g ← getMainGoal
  let t ← instantiateMVars (← g.getType)
  let some (_, lhs, _) := t.eq? | throwError "kernel_rfl: not an equation"
  g.assign (← mkEqRefl lhs)

end PyQ
