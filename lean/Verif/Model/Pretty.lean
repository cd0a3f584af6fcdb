import Verif.Model.Report

/-! # Model of `pretty` and `pretty_settings` in `pyqlaw/_qlaw.py`

What is printed is modelled as the values handed to `print`; the number of printed digits and the layout are
not. `self.element_names` is assigned by the constructor (`_qlaw.py:174,182`) and nowhere else; the
methods take it as an argument. -/

set_option linter.unusedSectionVars false

namespace PyQ
variable {α : Type} [Add α] [Sub α] [Mul α] [Div α] [Neg α] [NatCast α] [Pow α ℕ]
  [PyTrans α] [PyOrd α] [PyNan α]

/-- the names assigned by the constructor, `_qlaw.py:174,182` -/
def elementNames : ElemType → List String
  | .keplerian => ["a", "e", "i", "raan", "omega", "ta"]
  | .meeWithA => ["a", "f", "g", "h", "k", "L"]

/-- one line printed by `pretty`: name, initial value, target and weight -/
structure TransferLine (α : Type) where
  name : String
  initial : α
  target : α
  weight : α

/-- indexing a list: index error past the end -/
def pyIndex {β : Type} (l : List β) (i : ℕ) : Except PyErr β :=
  match l[i]? with
  | some x => .ok x
  | none => .error .indexError

/-- one line of `pretty`, `_qlaw.py:695-699`; `self.oe0`, `self.oeT` and `self.woe` exist after
`set_problem` only -/
def QLaw.prettyLine (Q : QLaw α) (names : List String) (i : Fin 5) : Except PyErr (TransferLine α) := do
  let name ← pyIndex names i.val
  let P ← Q.problem
  let t ← pyIndex P.oeT i.val
  pure { name := name, initial := P.oe0 i.castSucc, target := t, weight := P.woe i }

/-- `pretty`, `_qlaw.py:692-700`; an exception may be preceded by printed lines -/
def QLaw.pretty (Q : QLaw α) (names : List String) : Except PyErr (List (TransferLine α)) :=
  [0, 1, 2, 3, 4].mapM (Q.prettyLine names)

/-- the values printed by `pretty_settings` -/
structure Settings (α : Type) where
  elementsType : ElemType
  names : List String
  integrator : Integrator
  tol : Fin 5 → α
  tolRelaxed : Fin 5 → α
  exitAtRelaxed : ℤ

/-- `pretty_settings`, `_qlaw.py:718-726` -/
def QLaw.prettySettings (Q : QLaw α) (names : List String) : Settings α :=
  { elementsType := Q.cfg.elementsType
    names := names
    integrator := Q.cfg.integrator
    tol := Q.cfg.tolOe
    tolRelaxed := Q.cfg.tolOeRelaxed
    exitAtRelaxed := Q.cfg.exitAtRelaxed }

end PyQ
