import Verif.RatInst

/-!
# A small concrete object for satisfiability examples

Constant-rate dynamics and a constant control law over `Ext ℚ`, cheap enough for the kernel to run
`solve` by evaluation. The theorems quantify over every `Dyn`, so such an object is a legitimate
instance of their hypotheses; variants are made with record updates.
-/

namespace PyQ
namespace Toy

/-- the numbers used in examples -/
abbrev N := Ext ℚ

/-- constant-rate dynamics: the semi-major axis grows at unit rate; the control law always asks for
tangential thrust -/
def dyn : Dyn N where
  eom := fun _ _ _ => .ok ![.fin 1, .fin 0, .fin 0, .fin 0, .fin 0, .fin 1]
  lyapFun := fun _ =>
    { uRaw := ![.fin 0, .fin (-1), .fin 0], psi := fun _ _ => .fin 0, q := .fin 1,
      dqdoe := fun _ => .fin 0 }
  dqdtFun := fun _ => .fin 1
  checkConv := checkConvergenceMee

/-- the same with a control law that returns NaN -/
def nanDyn : Dyn N where
  eom := dyn.eom
  lyapFun := fun _ =>
    { uRaw := fun _ => .nan, psi := fun _ _ => .fin 0, q := .nan, dqdoe := fun _ => .nan }
  dqdtFun := dyn.dqdtFun
  checkConv := dyn.checkConv

/-- settings -/
def cfg : Config N where
  mu := .fin 1
  rpmin := .fin 1
  kPetro := .fin 1
  mPetro := .fin 3
  nPetro := .fin 4
  rPetro := .fin 2
  bPetro := .fin 1
  wp := .fin 1
  elementsType := .meeWithA
  integrator := .rk4
  anomalyGridSize := 4
  tolOe := fun _ => .fin (1 / 100)
  tolOeRelaxed := fun _ => .fin (1 / 10)
  exitAtRelaxed := 3
  oeMin := []
  oeMax := []
  nanAnglesThreshold := 2
  stepMin := .fin (1 / 10000)
  stepMax := .fin 2
  odeTol := .fin (1 / 100000)
  useSundman := false
  perturbations := none
  dyn := dyn

/-- raise the semi-major axis from 1 to 3 with steps of one half -/
def prob : Problem N where
  oe0 := ![.fin 1, .fin 0, .fin 0, .fin 0, .fin 0, .fin 0]
  oeT := [.fin 3, .fin 0, .fin 0, .fin 0, .fin 0]
  mass0 := .fin 1
  tmax := .fin 1
  mdot := .fin (1 / 100)
  tfMax := .fin 10
  tStep := .fin (1 / 2)
  massMin := .fin (1 / 10)
  woe := fun _ => .fin 1
  dutyOn := .fin 100
  dutyOff := .fin 0
  batteryInitial := .fin 1
  capMin := .fin 0
  capMax := .fin 1
  chargeRate := .fin 0
  dischargeRate := .fin 0
  requireFullRecharge := false

/-- the same problem as arguments of `set_problem` -/
def args : ProblemArgs N where
  oe0 := [.fin 1, .fin 0, .fin 0, .fin 0, .fin 0, .fin 0]
  oeT := [.fin 3, .fin 0, .fin 0, .fin 0, .fin 0]
  mass0 := .fin 1
  tmax := .fin 1
  mdot := .fin (1 / 100)
  tfMax := .fin 10
  tStep := .fin (1 / 2)
  massMin := .fin (1 / 10)
  woe := none
  dutyOn := .fin 100
  dutyOff := .fin 0
  batteryInitial := .fin 1
  capMin := .fin 0
  capMax := .fin 1
  chargeRate := .fin 0
  dischargeRate := .fin 0
  requireFullRecharge := false

/-- an object ready to solve `P` -/
def obj (C : Config N) (P : Problem N) : QLaw N :=
  { cfg := C, prob := some P, ready := true, converge := false, exitcode := 0, hist := none }

/-- float zero as a threshold -/
def z : EtaArg N := .flt (.fin 0)

/-- what an outside observer sees of a run: exception, exit code, flag, number of steps -/
def seen (C : Config N) (P : Problem N) (a r : EtaArg N) (fuel : ℕ) :
    Option (Option PyErr × ℤ × Bool × ℕ) :=
  ((obj C P).solve a r fuel).map fun p =>
    (p.2, p.1.exitcode, p.1.converge, (p.1.hist.map fun h => h.controls.length).getD 0)

/-- a summary of a run proves that the run exists -/
theorem of_seen {C : Config N} {P : Problem N} {a r : EtaArg N} {fuel : ℕ} {e : Option PyErr}
    {x : ℤ} {c : Bool} {n : ℕ} (h : seen C P a r fuel = some (e, x, c, n)) :
    ∃ Q', (obj C P).solve a r fuel = some (Q', e) ∧ Q'.exitcode = x ∧ Q'.converge = c ∧
      (Q'.hist.map fun h => h.controls.length).getD 0 = n := by
  unfold seen at h
  cases hs : (obj C P).solve a r fuel with
  | none => rw [hs] at h; simp at h
  | some p =>
    obtain ⟨Q', e'⟩ := p
    rw [hs] at h
    simp at h
    obtain ⟨h1, h2, h3, h4⟩ := h
    exact ⟨Q', by rw [h1], h2, h3, h4⟩

end Toy
end PyQ
