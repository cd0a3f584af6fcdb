import Verif.Model.Plot

/-! # Model of the reports: `pretty_results` in `pyqlaw/_qlaw.py`, `plot_elements_history`,
`plot_trajectory_2d` and `plot_trajectory_3d` in `pyqlaw/_plot_methods.py`

A report is the numbers handed to `print` or to matplotlib; rounding to five digits, labels, colours and
figure objects are not modelled. -/

set_option linter.unusedSectionVars false

namespace PyQ
variable {α : Type} [Add α] [Sub α] [Mul α] [Div α] [Neg α] [NatCast α] [Pow α ℕ]
  [PyTrans α] [PyOrd α] [PyNan α]

local notation "ℓ" n:max => (Nat.cast (n : ℕ) : α)

open PyTrans

/-- `self.oeT` and the other fields set by `set_problem`; an attribute error before that -/
def QLaw.problem (Q : QLaw α) : Except PyErr (Problem α) :=
  match Q.prob with
  | some P => .ok P
  | none => .error .attributeError

/-- `self.oeT[i]` for `i` below five -/
def first5 : List α → Except PyErr (Fin 5 → α)
  | a :: b :: c :: d :: e :: _ => .ok ![a, b, c, d, e]
  | _ => .error .indexError

/-- `states[-1]`, `times[-1]`, `masses[-1]`: index error on an empty list -/
def last1 {β : Type} (l : List β) : Except PyErr β :=
  match l.getLast? with
  | some x => .ok x
  | none => .error .indexError

/-- the numbers printed by `pretty_results` -/
structure Results (α : Type) where
  exitcode : ℤ
  converge : Bool
  final : Fin 5 → α
  error : Fin 5 → α
  time : α
  mass : α

/-- `pretty_results`, `_qlaw.py:703-715` -/
def QLaw.prettyResults (Q : QLaw α) : Except PyErr (Results α) := do
  let h ← Q.histories
  let x ← last1 h.states
  let P ← Q.problem
  let T ← first5 P.oeT
  let t ← last1 h.times
  let m ← last1 h.masses
  pure { exitcode := Q.exitcode
         converge := Q.converge
         final := fun i => x i.castSucc
         error := fun i => PyOrd.abs (x i.castSucc - T i)
         time := t
         mass := m }

/-- the target drawn in a panel of `plot_elements_history`: a band of half width `tol_oe` or a line -/
inductive Mark (α : Type) where
  | band (lo hi : α)
  | line (y : α)

/-- the data of `plot_elements_history`: for each of the first five panels the target and the history
curve, the periapsis overlay, and the curve of the last panel -/
structure ElementPlot (α : Type) where
  target : Fin 5 → Mark α
  history : Fin 5 → List α × List α
  periapsis : Option (List α × List α)
  last : List α × List α

/-- `multipliers` for converted elements, `_plot_methods.py:48`: degrees for the angles -/
def toDegrees (i : Fin 5) : α := if i.val < 2 then ℓ 1 else ℓ 180 / pi

/-- turn `idx` of the first loop of `plot_elements_history`, `_plot_methods.py:44-56`: the row and `oe_T` -/
def QLaw.elementRow (Q : QLaw α) (h : Hist α) (conv : Bool) (idx : ℕ) :
    Except PyErr ((Fin 6 → α) × List α) := do
  let s ← match h.states[idx]? with
    | some s => Except.ok s
    | none => Except.error PyErr.indexError
  let row ← if conv then meeWithA2kep s else pure s
  let P ← Q.problem
  if conv then do
    let v ← asVec5 P.oeT
    let k ← meeWithA2kep ![v 0, v 1, v 2, v 3, v 4, ℓ 0]
    pure (row, [k 0, k 1, k 2, k 3, k 4])
  else pure (row, P.oeT)

/-- `plot_elements_history(to_keplerian, TU, plot_mass, plot_periapsis)`, `_plot_methods.py:18-86`.
`oe_T` is computed in every turn of the first loop (`_plot_methods.py:49,55`), after the row. A run records
at least its initial state; with no recorded time `oe_T` would be unbound. The rows `oes` have as many
columns as there are times. -/
def QLaw.plotElementsHistory (Q : QLaw α) (tu : α) (toKeplerian plotMass plotPeriapsis : Bool) :
    Except PyErr (ElementPlot α) := do
  let h ← Q.histories
  let conv := toKeplerian && (Q.cfg.elementsType == ElemType.meeWithA)
  let rows ← (List.range h.times.length).mapM (Q.elementRow h conv)
  let oeT ← match rows.getLast? with
    | some r => Except.ok r.2
    | none => Except.error PyErr.unboundLocal
  let T ← first5 oeT
  let x := h.times.map (· * tu)
  let oes := rows.map Prod.fst
  let mult : Fin 5 → α := fun i => if conv then toDegrees i else ℓ 1
  let last ← if plotMass then curve x h.masses
    else curve x (oes.map fun r => fmod (r 5) (ℓ 2 * pi) * ℓ 180 / pi)
  pure {
    target := fun i =>
      if conv then .line (T i * mult i)
      else .band ((T i - Q.cfg.tolOe i) * mult i) ((T i + Q.cfg.tolOe i) * mult i)
    history := fun i => (x, oes.map fun r => r i.castSucc * mult i)
    periapsis := if plotPeriapsis then some (x, oes.map fun r => r 0 * (ℓ 1 - r 1)) else none
    last := last }

/-- the curves of `plot_trajectory_2d` and `plot_trajectory_3d`, as Cartesian states (the first two or three
components are drawn); `start` and `stop` are the two markers -/
structure TrajectoryPlot (α : Type) where
  initial : List (Fin 6 → α)
  final : List (Fin 6 → α)
  transfer : List (Fin 6 → α)
  start : Fin 6 → α
  stop : Fin 6 → α

/-- the elements handed to `get_orbit_coordinates`, `_plot_methods.py:161-167,195-203` -/
def orbitElements (C : Config α) (x : Fin 6 → α) : Except PyErr (Fin 6 → α) :=
  match C.elementsType with
  | .keplerian => .ok x
  | .meeWithA => meeWithA2kep x

/-- `plot_trajectory_2d(interpolate=False)` and `plot_trajectory_3d(interpolate=False)`,
`_plot_methods.py:149-224`; `get_orbit_coordinates` is called with its default of 200 points. With
`mee_with_a` the first function cuts a longer target to five components; such a target cannot be solved
for (C30), and both are modelled as rejecting it. -/
def QLaw.plotTrajectory (Q : QLaw α) : Except PyErr (TrajectoryPlot α) := do
  let cart ← Q.getCartesianHistory
  let P ← Q.problem
  let k0 ← orbitElements Q.cfg P.oe0
  let orb0 ← getOrbitCoordinates k0 Q.cfg.mu 200
  let v ← asVec5 P.oeT
  let kT ← orbitElements Q.cfg ![v 0, v 1, v 2, v 3, v 4, ℓ 0]
  let orbT ← getOrbitCoordinates kT Q.cfg.mu 200
  let c0 ← match cart.head? with
    | some c => Except.ok c
    | none => Except.error PyErr.indexError
  let c1 ← last1 cart
  pure { initial := orb0, final := orbT, transfer := cart, start := c0, stop := c1 }

end PyQ
