import Lean.Elab.Tactic.Basic

/-! # Leaving a computation to the kernel -/

namespace Ariadne

open Lean Elab Tactic Meta in
/-- Closes a goal `b = true` with `rfl` without asking the elaborator (which is slow here) whether this is possible: it is
left to the kernel to find out. -/
elab "kernel_rfl" : tactic => do
  (← getMainGoal).assign (← mkEqRefl (mkConst ``Bool.true))

end Ariadne
