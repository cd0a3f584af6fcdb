import Verif.Model.Export

/-! # Model of the geometry in `pyqlaw/_plot_helper.py` and the data computed in `_plot_methods.py`
(matplotlib calls are not modelled: a plot is the data handed to it) -/

set_option linter.unusedSectionVars false

namespace PyQ
variable {α : Type} [Add α] [Sub α] [Mul α] [Div α] [Neg α] [NatCast α] [Pow α ℕ]
  [PyTrans α] [PyOrd α] [PyNan α]

local notation "ℓ" n:max => (Nat.cast (n : ℕ) : α)

open PyTrans

/-- mesh point `(u, v)` of `get_sphere_coordinates`, `_plot_helper.py:24-26` -/
def spherePoint (radius : α) (center : Fin 3 → α) (u v : α) : Fin 3 → α :=
  ![center 0 + radius * cos u * sin v, center 1 + radius * sin u * sin v,
    center 2 + radius * cos v]

/-- `get_sphere_coordinates`, `_plot_helper.py:8-27`: the mesh `np.mgrid[0:2π:20j, 0:π:10j]` is the
product of two `linspace` grids -/
def getSphereCoordinates (radius : α) (center : Option (Fin 3 → α)) : List (List (Fin 3 → α)) :=
  (linspace (ℓ 0) (ℓ 2 * pi) 20).map fun u => (linspace (ℓ 0) pi 10).map fun v =>
    spherePoint radius (center.getD zero3) u v

/-- `get_ellipsoid_coordinates`, `_plot_helper.py:45-70` -/
def getEllipsoidCoordinates (rx ry rz : α) (center : Option (Fin 3 → α)) (n : ℕ) :
    List (List (Fin 3 → α)) :=
  let c := center.getD zero3
  (linspace (ℓ 0) (ℓ 2 * pi) n).map fun u => (linspace (ℓ 0) pi n).map fun v =>
    ![c 0 + rx * (cos u * sin v), c 1 + ry * (sin u * sin v), c 2 + rz * (ℓ 1 * cos v)]

/-- limits passed to matplotlib by `set_equal_axis`, `_plot_helper.py:91-115`; the three pairs
(the last one only used when `dim3`) -/
def setEqualAxis (xlims ylims zlims : List α) (scale : α) : Except PyErr (Fin 3 → α × α) := do
  let xM ← pymaxList xlims
  let xm ← pyminList xlims
  let yM ← pymaxList ylims
  let ym ← pyminList ylims
  let zM ← pymaxList zlims
  let zm ← pyminList zlims
  let maxRange := npmax (npmax (xM - xm) (yM - ym)) (zM - zm) / ℓ 2
  let midX := (xM + xm) * rat 1 2
  let midY := (yM + ym) * rat 1 2
  let midZ := (zM + zm) * rat 1 2
  pure ![(midX - maxRange * scale, midX + maxRange * scale),
         (midY - maxRange * scale, midY + maxRange * scale),
         (midZ - maxRange * scale, midZ + maxRange * scale)]

/-- the frame of `plot_trajectory_3d`, `_plot_methods.py:216-221`, around the columns of the Cartesian
history -/
def trajectoryFrame (cart : List (Fin 6 → α)) (scale : α) : Except PyErr (Fin 3 → α × α) := do
  let xm ← pyminList (cart.map fun c => c 0)
  let xM ← pymaxList (cart.map fun c => c 0)
  let ym ← pyminList (cart.map fun c => c 1)
  let yM ← pymaxList (cart.map fun c => c 1)
  let zm ← pyminList (cart.map fun c => c 2)
  let zM ← pymaxList (cart.map fun c => c 2)
  setEqualAxis [xm, xM] [ym, yM] [zm, zM] scale

/-- a curve handed to `ax.plot(x, y)` or `ax.step(x, y)`; matplotlib raises `ValueError` if the
lengths differ -/
def curve (x y : List α) : Except PyErr (List α × List α) :=
  if x.length = y.length then .ok (x, y) else .error .valueError

/-- `plot_controls`, `_plot_methods.py:116-148`: the curves, in the order drawn (angles in degrees,
throttle in percent) -/
def QLaw.plotControls (Q : QLaw α) (tu : α) (showAnomaly : Bool) :
    Except PyErr (List (List α × List α)) := do
  let h ← Q.histories
  let x := h.times.dropLast.map (· * tu)
  let an ← if showAnomaly then do
      let c ← curve (h.times.map (· * tu)) (h.states.map fun s => wrap (s 5) * ℓ 180 / pi)
      pure [c]
    else pure []
  let al ← curve x (h.controls.map fun c => c.1 * ℓ 180 / pi)
  let be ← curve x (h.controls.map fun c => c.2.1 * ℓ 180 / pi)
  let th ← curve x (h.controls.map fun c => (Nat.cast c.2.2 : α) * ℓ 100)
  pure (an ++ [al, be, th])

/-- `plot_battery_history`, `_plot_methods.py:88-113`: the battery curve and the two horizontal lines -/
def QLaw.plotBatteryHistory (Q : QLaw α) (tu bu : α) :
    Except PyErr ((List α × List α) × α × α) := do
  let h ← Q.histories
  let c ← curve (h.times.map (· * tu)) (h.battery.map (· * bu))
  match Q.prob with
  | some P => pure (c, P.capMin * bu, P.capMax * bu)
  | none => .error .attributeError

/-- `np.array(rows)[:, i]`: on an empty list the array is one-dimensional and the index is an error -/
def column {β : Type} (rows : List β) (f : β → α) : Except PyErr (List α) :=
  if rows.isEmpty then .error .indexError else .ok (rows.map f)

/-- `plot_efficiency`, `_plot_methods.py:227-249` -/
def QLaw.plotEfficiency (Q : QLaw α) (tu : α) : Except PyErr (List (List α × List α)) := do
  let h ← Q.histories
  let x := h.times.dropLast.map (· * tu)
  let ya ← column h.etas Prod.fst
  let ca ← curve x ya
  let yab ← column h.etasBounds Prod.fst
  let cab ← curve x yab
  let yr ← column h.etas Prod.snd
  let cr ← curve x yr
  let yrb ← column h.etasBounds Prod.snd
  let crb ← curve x yrb
  pure [ca, cab, cr, crb]

/-- `plot_Q`, `_plot_methods.py:252-271` -/
def QLaw.plotQ (Q : QLaw α) (tu : α) : Except PyErr (List (List α × List α)) := do
  let h ← Q.histories
  let x := h.times.dropLast.map (· * tu)
  let cq ← curve x h.qs
  let cd ← curve x h.dqdts
  pure [cq, cd]

end PyQ
