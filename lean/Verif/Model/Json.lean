import Verif.Model.Export

/-! # Model of the file written by `save_to_dict`, `pyqlaw/_qlaw.py`

`json.dump` and `json.load` of the standard library are modelled by the table in their documentation:
`None`, Booleans, integers, floats and strings are written as such, lists and tuples as arrays, dictionaries
with string keys as objects, and anything else is first passed to the `default` method of the encoder, here
`NumpyEncoder` (`_qlaw.py:44-53`). Floats are written by `repr`, which reads back as the same float; a NaN
or an infinity is written as the token `NaN` or `Infinity`, which `json.load` accepts. The layout of the text
(`indent=4`) is not modelled. Dictionaries have string keys, and no container contains itself. -/

set_option linter.unusedSectionVars false

namespace PyQ
variable {α : Type}

/-- a numpy array as nested rows -/
inductive NArr (α : Type) where
  | scalar (x : α)
  | rows (l : List (NArr α))

/-- a Python value -/
inductive PyObj (α : Type) where
  | none
  | bool (b : Bool)
  | int (n : ℤ)
  | flt (x : α)
  | str (s : String)
  | npInt (n : ℤ)
  | npFlt (x : α)
  | ndarray (a : NArr α)
  | list (l : List (PyObj α))
  | tuple (l : List (PyObj α))
  | dict (l : List (String × PyObj α))
  | other

/-- the content of a json file -/
inductive Json (α : Type) where
  | null
  | bool (b : Bool)
  | int (n : ℤ)
  | num (x : α)
  | str (s : String)
  | arr (l : List (Json α))
  | obj (l : List (String × Json α))

mutual
/-- `ndarray.tolist()` -/
def NArr.tolist : NArr α → PyObj α
  | .scalar x => .flt x
  | .rows l => .list (NArr.tolists l)
def NArr.tolists : List (NArr α) → List (PyObj α)
  | [] => []
  | a :: l => NArr.tolist a :: NArr.tolists l
end

mutual
/-- how a nested list of floats is written -/
def NArr.json : NArr α → Json α
  | .scalar x => .num x
  | .rows l => .arr (NArr.jsons l)
def NArr.jsons : List (NArr α) → List (Json α)
  | [] => []
  | a :: l => NArr.json a :: NArr.jsons l
end

/-- `NumpyEncoder.default`, `_qlaw.py:46-53`: the value that is written in place of `obj`;
`json.JSONEncoder.default` raises a `TypeError` -/
def numpyDefault : PyObj α → Except PyErr (PyObj α)
  | .npInt n => .ok (.int n)
  | .npFlt x => .ok (.flt x)
  | .ndarray a => .ok a.tolist
  | _ => .error .typeError

mutual
/-- `json.dump(obj, f, cls=NumpyEncoder)`; the three cases that go through `numpyDefault` are written out
(`encode_default` in `Verif/Props/Saved.lean` shows that they are the encoding of its result) -/
def PyObj.encode : PyObj α → Except PyErr (Json α)
  | .none => .ok .null
  | .bool b => .ok (.bool b)
  | .int n => .ok (.int n)
  | .flt x => .ok (.num x)
  | .str s => .ok (.str s)
  | .npInt n => .ok (.int n)
  | .npFlt x => .ok (.num x)
  | .ndarray a => .ok a.json
  | .list l => do pure (.arr (← PyObj.encodes l))
  | .tuple l => do pure (.arr (← PyObj.encodes l))
  | .dict l => do pure (.obj (← PyObj.encodeItems l))
  | .other => .error .typeError
def PyObj.encodes : List (PyObj α) → Except PyErr (List (Json α))
  | [] => .ok []
  | a :: l => do
    let j ← PyObj.encode a
    let js ← PyObj.encodes l
    pure (j :: js)
def PyObj.encodeItems : List (String × PyObj α) → Except PyErr (List (String × Json α))
  | [] => .ok []
  | (k, a) :: l => do
    let j ← PyObj.encode a
    let js ← PyObj.encodeItems l
    pure ((k, j) :: js)
end

mutual
/-- `json.load` -/
def Json.load : Json α → PyObj α
  | .null => .none
  | .bool b => .bool b
  | .int n => .int n
  | .num x => .flt x
  | .str s => .str s
  | .arr l => .list (Json.loads l)
  | .obj l => .dict (Json.loadItems l)
def Json.loads : List (Json α) → List (PyObj α)
  | [] => []
  | a :: l => Json.load a :: Json.loads l
def Json.loadItems : List (String × Json α) → List (String × PyObj α)
  | [] => []
  | (k, a) :: l => (k, Json.load a) :: Json.loadItems l
end

/-- what a call of `save_to_dict` does to the file -/
inductive Disk (α : Type) where
  /-- the file system is not touched -/
  | untouched
  /-- the file holds this value -/
  | complete (j : Json α)
  /-- the file was opened for writing, which empties it, and writing was interrupted -/
  | truncated

variable [Add α] [Sub α] [Mul α] [Div α] [Neg α] [NatCast α] [Pow α ℕ] [PyTrans α] [PyOrd α] [PyNan α]

/-- an array of rows of floats -/
def rowsArr (l : List (List α)) : PyObj α :=
  .ndarray (.rows (l.map fun r => .rows (r.map .scalar)))

/-- the dictionary of `save_to_dict` as a Python value, `_qlaw.py:734-754`: `times` and the rows of
`states` are lists of floats, `controls` is an array -/
def Saved.dict (S : Saved α) (units : PyObj α) : PyObj α :=
  .dict [("t0", .flt S.t0), ("tf", .flt S.tf), ("times", .list (S.times.map .flt)),
    ("canonical_units", units), ("states", .list (S.states.map fun r => .list (r.map .flt))),
    ("controls", rowsArr S.controls)]

/-- `save_to_dict(filepath, canonical_units, save_control_angles)`, `_qlaw.py:728-760`: the returned
dictionary or the exception, and what happened to the file. `toFile` is `filepath is not None`; the file can
be opened. -/
def QLaw.saveToFile (Q : QLaw α) (toFile : Bool) (units : PyObj α) (saveControlAngles : Bool) :
    Except PyErr (PyObj α) × Disk α :=
  match Q.saveToDict saveControlAngles with
  | .error e => (.error e, .untouched)
  | .ok (S, _) =>
    if toFile then
      match (S.dict units).encode with
      | .ok j => (.ok (S.dict units), .complete j)
      | .error e => (.error e, .truncated)
    else (.ok (S.dict units), .untouched)

end PyQ
