import Verif.Model.Qlaw

/-! # Model of the export methods of `pyqlaw/_qlaw.py` -/

set_option linter.unusedSectionVars false

namespace PyQ
variable {α : Type} [Add α] [Sub α] [Mul α] [Div α] [Neg α] [NatCast α] [Pow α ℕ]
  [PyTrans α] [PyOrd α] [PyNan α]

local notation "ℓ" n:max => (Nat.cast (n : ℕ) : α)

open PyTrans

/-- the dictionary returned by `save_to_dict` (units and file writing in `Model/Json.lean`) -/
structure Saved (α : Type) where
  t0 : α
  tf : α
  times : List α
  states : List (List α)
  controls : List (List α)

/-- `list(v)` of a 6-vector -/
def vec6List (v : Fin 6 → α) : List α := [v 0, v 1, v 2, v 3, v 4, v 5]

/-- `self.<history>` before any `solve()` is an attribute error -/
def QLaw.histories (Q : QLaw α) : Except PyErr (Hist α) :=
  match Q.hist with
  | some h => .ok h
  | none => .error .attributeError

/-- `_qlaw.py:741-743`: a copy of `self.controls` with a final `[0,0,0]`, as floats -/
def controlRows (h : Hist α) : List (α × α × α) :=
  h.controls.map (fun c => (c.1, c.2.1, (Nat.cast c.2.2 : α))) ++ [(ℓ 0, ℓ 0, ℓ 0)]

/-- the dictionary built by `save_to_dict`, `_qlaw.py:734-754` -/
def Hist.saved (h : Hist α) (saveControlAngles : Bool) : Saved α :=
  { t0 := ℓ 0
    tf := h.lastTime
    times := h.times
    states := (h.states.zip h.masses).map fun p => vec6List (meeWithA2mee p.1) ++ [p.2]
    controls := (controlRows h).map fun c =>
      if saveControlAngles then [c.1, c.2.1, c.2.2]
      else [cos c.2.1 * sin c.1, cos c.2.1 * cos c.1, sin c.2.1, c.2.2] }

/-- `save_to_dict(filepath, canonical_units, save_control_angles)`, `_qlaw.py:728-760`, and the object
afterwards: `self.controls` is copied before the final row is appended (`_qlaw.py:741`) -/
def QLaw.saveToDict (Q : QLaw α) (saveControlAngles : Bool) : Except PyErr (Saved α × QLaw α) := do
  let h ← Q.histories
  pure (h.saved saveControlAngles, Q)

/-- Cartesian image of one recorded state, `_qlaw.py:674-677,682-685` -/
def toCartesian (C : Config α) (oe : Fin 6 → α) : Except PyErr (Fin 6 → α) :=
  match C.elementsType with
  | .keplerian => kep2sv oe C.mu
  | .meeWithA => meeWithA2sv oe C.mu

/-- `get_cartesian_history(interpolate=False)`, `_qlaw.py:678-689`: the columns, in order. The
loop runs over `range(len(times))` indexing `states`; a missing state would be an index error. -/
def QLaw.getCartesianHistory (Q : QLaw α) : Except PyErr (List (Fin 6 → α)) := do
  let h ← Q.histories
  (List.range h.times.length).mapM fun idx =>
    match h.states[idx]? with
    | some oe => toCartesian Q.cfg oe
    | none => .error .indexError

/-- `steps`, `_qlaw.py:668-669`: given, or at most 8000 and one per hundredth of a time unit;
`roundInt` is Python's `int(round(x))` -/
def interpSteps (roundInt : α → ℤ) (h : Hist α) : Option ℕ → ℕ
  | some n => n
  | none => min 8000 (roundInt (h.lastTime / rat 1 100)).natAbs

/-- `get_cartesian_history(interpolate=True, steps=steps, get_t_evals=True)`, `_qlaw.py:665-677`, with
an arbitrary interpolation scheme (`interp1d(times, values)` evaluated at `t`); returns the columns and
`t_evals` -/
def QLaw.getCartesianHistoryInterp (interp : List α → List α → α → α) (roundInt : α → ℤ)
    (Q : QLaw α) (steps : Option ℕ) : Except PyErr (List (Fin 6 → α) × List α) := do
  let h ← Q.histories
  let tEvals := linspace (h.times.headD (ℓ 0)) h.lastTime (interpSteps roundInt h steps)
  let cols ← tEvals.mapM fun t =>
    toCartesian Q.cfg (fun i => interp h.times (h.states.map fun s => s i) t)
  pure (cols, tEvals)

end PyQ
