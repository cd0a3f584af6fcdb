import Verif.Model.Json
import Verif.Props.Export
import Verif.Examples.Toy

/-! # The file written by `save_to_dict` (C100) -/

set_option linter.unusedSectionVars false
set_option maxRecDepth 100000
set_option synthInstance.maxSize 1000

namespace PyQ
variable {α : Type}

/-! ## Encoding and decoding -/

mutual
/-- the value with tuples and arrays turned into lists and numpy scalars into Python numbers -/
def PyObj.plain : PyObj α → PyObj α
  | .npInt n => .int n
  | .npFlt x => .flt x
  | .ndarray a => a.tolist
  | .list l => .list (PyObj.plains l)
  | .tuple l => .list (PyObj.plains l)
  | .dict l => .dict (PyObj.plainItems l)
  | .none => .none
  | .bool b => .bool b
  | .int n => .int n
  | .flt x => .flt x
  | .str s => .str s
  | .other => .other
def PyObj.plains : List (PyObj α) → List (PyObj α)
  | [] => []
  | a :: l => PyObj.plain a :: PyObj.plains l
def PyObj.plainItems : List (String × PyObj α) → List (String × PyObj α)
  | [] => []
  | (k, a) :: l => (k, PyObj.plain a) :: PyObj.plainItems l
end

mutual
/-- no object of an unknown type occurs in the value -/
def PyObj.Clean : PyObj α → Prop
  | .list l => PyObj.Cleans l
  | .tuple l => PyObj.Cleans l
  | .dict l => PyObj.CleanItems l
  | .other => False
  | _ => True
def PyObj.Cleans : List (PyObj α) → Prop
  | [] => True
  | a :: l => PyObj.Clean a ∧ PyObj.Cleans l
def PyObj.CleanItems : List (String × PyObj α) → Prop
  | [] => True
  | (_, a) :: l => PyObj.Clean a ∧ PyObj.CleanItems l
end

mutual
theorem tolist_encode : ∀ a : NArr α, a.tolist.encode = .ok a.json
  | .scalar x => rfl
  | .rows l => by
    simp only [NArr.tolist, PyObj.encode, NArr.json, tolists_encode l, bind, Except.bind, pure, Except.pure]
theorem tolists_encode : ∀ l : List (NArr α), PyObj.encodes (NArr.tolists l) = .ok (NArr.jsons l)
  | [] => rfl
  | a :: l => by
    simp only [NArr.tolists, PyObj.encodes, NArr.jsons, tolist_encode a, tolists_encode l, bind,
      Except.bind, pure, Except.pure]
end

/-- a value that the encoder passes to `NumpyEncoder.default` is written as the value this returns -/
theorem encode_default : ∀ {o o' : PyObj α}, numpyDefault o = .ok o' → o.encode = o'.encode
  | .npInt _, _, h => by cases h; rfl
  | .npFlt _, _, h => by cases h; rfl
  | .ndarray a, _, h => by cases h; exact (tolist_encode a).symm

/-- **C100**, `NumpyEncoder.default`: it accepts numpy integers, numpy floats and arrays, and nothing else
(`TypeError`); what is written for a value it accepts is what is written for the value it returns -/
theorem C100_encoder (o : PyObj α) :
    (((∃ n, o = .npInt n) ∨ (∃ x, o = .npFlt x) ∨ ∃ a, o = .ndarray a) ∧
      ∃ o', numpyDefault o = .ok o' ∧ o.encode = o'.encode) ∨
    ((∀ n, o ≠ .npInt n) ∧ (∀ x, o ≠ .npFlt x) ∧ (∀ a, o ≠ .ndarray a) ∧ numpyDefault o = .error .typeError) := by
  cases o with
  | npInt n => exact Or.inl ⟨Or.inl ⟨n, rfl⟩, _, rfl, encode_default rfl⟩
  | npFlt x => exact Or.inl ⟨Or.inr (Or.inl ⟨x, rfl⟩), _, rfl, encode_default rfl⟩
  | ndarray a => exact Or.inl ⟨Or.inr (Or.inr ⟨a, rfl⟩), _, rfl, encode_default rfl⟩
  | _ => exact Or.inr ⟨nofun, nofun, nofun, rfl⟩

mutual
theorem json_load : ∀ a : NArr α, a.json.load = a.tolist
  | .scalar x => rfl
  | .rows l => by simp only [NArr.json, Json.load, NArr.tolist, jsons_load l]
theorem jsons_load : ∀ l : List (NArr α), Json.loads (NArr.jsons l) = NArr.tolists l
  | [] => rfl
  | a :: l => by simp only [NArr.jsons, Json.loads, NArr.tolists, json_load a, jsons_load l]
end

mutual
theorem encode_clean : ∀ o : PyObj α, o.Clean → ∃ j, o.encode = .ok j ∧ j.load = o.plain
  | .none, _ => ⟨_, rfl, rfl⟩
  | .bool _, _ => ⟨_, rfl, rfl⟩
  | .int _, _ => ⟨_, rfl, rfl⟩
  | .flt _, _ => ⟨_, rfl, rfl⟩
  | .str _, _ => ⟨_, rfl, rfl⟩
  | .npInt _, _ => ⟨_, rfl, rfl⟩
  | .npFlt _, _ => ⟨_, rfl, rfl⟩
  | .ndarray a, _ => ⟨_, rfl, json_load a⟩
  | .list l, h => by
    obtain ⟨js, h1, h2⟩ := encodes_clean l h
    refine ⟨.arr js, ?_, ?_⟩
    · simp only [PyObj.encode, h1, bind, Except.bind, pure, Except.pure]
    · simp only [Json.load, PyObj.plain, h2]
  | .tuple l, h => by
    obtain ⟨js, h1, h2⟩ := encodes_clean l h
    refine ⟨.arr js, ?_, ?_⟩
    · simp only [PyObj.encode, h1, bind, Except.bind, pure, Except.pure]
    · simp only [Json.load, PyObj.plain, h2]
  | .dict l, h => by
    obtain ⟨js, h1, h2⟩ := encodeItems_clean l h
    refine ⟨.obj js, ?_, ?_⟩
    · simp only [PyObj.encode, h1, bind, Except.bind, pure, Except.pure]
    · simp only [Json.load, PyObj.plain, h2]
  | .other, h => h.elim
theorem encodes_clean : ∀ l : List (PyObj α), PyObj.Cleans l →
    ∃ js, PyObj.encodes l = .ok js ∧ Json.loads js = PyObj.plains l
  | [], _ => ⟨[], rfl, rfl⟩
  | a :: l, h => by
    obtain ⟨j, h1, h2⟩ := encode_clean a h.1
    obtain ⟨js, h3, h4⟩ := encodes_clean l h.2
    refine ⟨j :: js, ?_, ?_⟩
    · simp only [PyObj.encodes, h1, h3, bind, Except.bind, pure, Except.pure]
    · simp only [Json.loads, PyObj.plains, h2, h4]
theorem encodeItems_clean : ∀ l : List (String × PyObj α), PyObj.CleanItems l →
    ∃ js, PyObj.encodeItems l = .ok js ∧ Json.loadItems js = PyObj.plainItems l
  | [], _ => ⟨[], rfl, rfl⟩
  | (k, a) :: l, h => by
    obtain ⟨j, h1, h2⟩ := encode_clean a h.1
    obtain ⟨js, h3, h4⟩ := encodeItems_clean l h.2
    refine ⟨(k, j) :: js, ?_, ?_⟩
    · simp only [PyObj.encodeItems, h1, h3, bind, Except.bind, pure, Except.pure]
    · simp only [Json.loadItems, PyObj.plainItems, h2, h4]
end

mutual
theorem encode_unclean : ∀ o : PyObj α, ¬ o.Clean → o.encode = .error .typeError
  | .none, h => (h trivial).elim
  | .bool _, h => (h trivial).elim
  | .int _, h => (h trivial).elim
  | .flt _, h => (h trivial).elim
  | .str _, h => (h trivial).elim
  | .npInt _, h => (h trivial).elim
  | .npFlt _, h => (h trivial).elim
  | .ndarray _, h => (h trivial).elim
  | .list l, h => by
    simp only [PyObj.encode, encodes_unclean l h, bind, Except.bind]
  | .tuple l, h => by
    simp only [PyObj.encode, encodes_unclean l h, bind, Except.bind]
  | .dict l, h => by
    simp only [PyObj.encode, encodeItems_unclean l h, bind, Except.bind]
  | .other, _ => rfl
theorem encodes_unclean : ∀ l : List (PyObj α), ¬ PyObj.Cleans l →
    PyObj.encodes l = .error .typeError
  | [], h => (h trivial).elim
  | a :: l, h => by
    by_cases ha : a.Clean
    · obtain ⟨j, h1, -⟩ := encode_clean a ha
      simp only [PyObj.encodes, h1, encodes_unclean l (fun h' => h ⟨ha, h'⟩), bind, Except.bind]
    · simp only [PyObj.encodes, encode_unclean a ha, bind, Except.bind]
theorem encodeItems_unclean : ∀ l : List (String × PyObj α), ¬ PyObj.CleanItems l →
    PyObj.encodeItems l = .error .typeError
  | [], h => (h trivial).elim
  | (k, a) :: l, h => by
    by_cases ha : a.Clean
    · obtain ⟨j, h1, -⟩ := encode_clean a ha
      simp only [PyObj.encodeItems, h1, encodeItems_unclean l (fun h' => h ⟨ha, h'⟩), bind, Except.bind]
    · simp only [PyObj.encodeItems, encode_unclean a ha, bind, Except.bind]
end

theorem cleans_map {β : Type} {f : β → PyObj α} (h : ∀ x, (f x).Clean) : ∀ l : List β,
    PyObj.Cleans (l.map f)
  | [] => trivial
  | a :: l => ⟨h a, cleans_map h l⟩

theorem plains_map {β : Type} {f : β → PyObj α} : ∀ l : List β,
    PyObj.plains (l.map f) = l.map fun x => (f x).plain
  | [] => rfl
  | a :: l => by simp only [List.map_cons, PyObj.plains, plains_map l]

theorem tolists_map {β : Type} {f : β → NArr α} : ∀ l : List β,
    NArr.tolists (l.map f) = l.map fun x => (f x).tolist
  | [] => rfl
  | a :: l => by simp only [List.map_cons, NArr.tolists, tolists_map l]

/-- a list of floats -/
def floats (l : List α) : PyObj α := .list (l.map .flt)

/-- a list of lists of floats -/
def floatRows (l : List (List α)) : PyObj α := .list (l.map floats)

section lawfree
variable [Add α] [Sub α] [Mul α] [Div α] [Neg α] [NatCast α] [Pow α ℕ] [PyTrans α] [PyOrd α] [PyNan α]

theorem dict_clean (S : Saved α) (units : PyObj α) : (S.dict units).Clean ↔ units.Clean := by
  have h0 : ∀ r : List α, (PyObj.list (r.map PyObj.flt)).Clean := by
    intro r
    exact cleans_map (f := PyObj.flt) (fun _ => trivial) r
  have h1 : PyObj.Cleans (S.times.map PyObj.flt) :=
    cleans_map (f := PyObj.flt) (fun _ => trivial) _
  have h2 : PyObj.Cleans (S.states.map fun r => PyObj.list (r.map PyObj.flt)) :=
    cleans_map (fun r => h0 r) _
  constructor
  · intro h; exact h.2.2.2.1
  · intro h; exact ⟨trivial, trivial, h1, h, h2, trivial, trivial⟩

/-- what is read back from the file -/
theorem dict_plain (S : Saved α) (units : PyObj α) : (S.dict units).plain =
    .dict [("t0", .flt S.t0), ("tf", .flt S.tf), ("times", floats S.times),
      ("canonical_units", units.plain), ("states", floatRows S.states),
      ("controls", floatRows S.controls)] := by
  have hf : ∀ l : List α, (PyObj.list (l.map PyObj.flt)).plain = floats l := by
    intro l
    simp only [PyObj.plain, plains_map, floats]
  have hs : (PyObj.list (S.states.map fun r => PyObj.list (r.map PyObj.flt))).plain =
      floatRows S.states := by
    rw [PyObj.plain, plains_map]
    simp only [hf]
    rfl
  have hc : (rowsArr S.controls).plain = floatRows S.controls := by
    simp only [rowsArr, PyObj.plain, NArr.tolist, tolists_map, floatRows]
    rfl
  simp only [Saved.dict, PyObj.plain, PyObj.plainItems] at *
  simp only [hf, hs, hc]

/-- **C100.** After a completed run `save_to_dict(filepath, canonical_units, save_control_angles)` either
returns the exported data with the given units, the dictionary being the same with and without a file, and
the file then reads back as this dictionary: the keys `t0`, `tf`, `times`, `canonical_units`, `states`,
`controls` in this order, the numbers in nested lists in the order of the recorded histories. Or an object of
a type unknown to json occurs in the units and a file is asked for: then a `TypeError` is raised and the file
is left incomplete. Without `filepath` no file is touched and nothing is raised. -/
theorem C100_saved {Q Q' : QLaw α} {etaA etaR : EtaArg α} {fuel : ℕ} {H : Hist α}
    (_h : Q.solve etaA etaR fuel = some (Q', none)) (hH : Q'.hist = some H) (units : PyObj α)
    (angles : Bool) : ∃ S D, Q'.saveToDict angles = .ok (S, Q') ∧
      D = PyObj.dict [("t0", .flt S.t0), ("tf", .flt S.tf), ("times", floats S.times),
        ("canonical_units", units), ("states", floatRows S.states), ("controls", rowsArr S.controls)] ∧
      Q'.saveToFile false units angles = (.ok D, .untouched) ∧
      (units.Clean → ∃ j, Q'.saveToFile true units angles = (.ok D, .complete j) ∧
        j.load = .dict [("t0", .flt S.t0), ("tf", .flt S.tf), ("times", floats S.times),
          ("canonical_units", units.plain), ("states", floatRows S.states),
          ("controls", floatRows S.controls)]) ∧
      (¬ units.Clean → Q'.saveToFile true units angles = (.error .typeError, .truncated)) := by
  refine ⟨H.saved angles, _, saveToDict_eq hH angles, rfl, ?_, ?_, ?_⟩
  · simp only [QLaw.saveToFile, saveToDict_eq hH, Bool.false_eq_true, if_false]
    rfl
  · intro hu
    obtain ⟨j, h1, h2⟩ := encode_clean _ ((dict_clean (H.saved angles) units).2 hu)
    refine ⟨j, ?_, h2.trans (dict_plain _ _)⟩
    simp only [QLaw.saveToFile, saveToDict_eq hH, if_true, h1]
    rfl
  · intro hu
    have h1 := encode_unclean _ (fun h => hu ((dict_clean (H.saved angles) units).1 h))
    simp only [QLaw.saveToFile, saveToDict_eq hH, if_true, h1]

/-- **C100**, before the first run: `save_to_dict` raises and touches no file -/
theorem C100_no_results {Q : QLaw α} (hH : Q.hist = none) (toFile : Bool) (units : PyObj α)
    (angles : Bool) : Q.saveToFile toFile units angles = (.error .attributeError, .untouched) := by
  simp only [QLaw.saveToFile, QLaw.saveToDict, QLaw.histories, hH, bind, Except.bind]

/-- **C100**, the numpy values: a numpy integer, a numpy float and an array of any shape are read back as
the integer, the float and the nested lists of its entries -/
theorem C100_numpy (n : ℤ) (x : α) (a : NArr α) :
    (∃ j, (PyObj.npInt n : PyObj α).encode = .ok j ∧ j.load = .int n) ∧
    (∃ j, (PyObj.npFlt x).encode = .ok j ∧ j.load = .flt x) ∧
    ∃ j, (PyObj.ndarray a).encode = .ok j ∧ j.load = a.tolist :=
  ⟨⟨_, rfl, rfl⟩, ⟨_, rfl, rfl⟩, ⟨_, rfl, json_load a⟩⟩

end lawfree

/-! ## A saved run -/

/-- units with a tuple, a numpy integer and an array -/
def sampleUnits : PyObj Toy.N :=
  .dict [("LU", .flt (.fin 6378)), ("body", .tuple [.str "EARTH", .npInt 399]),
    ("mu", .ndarray (.rows [.scalar (.fin 1), .scalar (.fin 2)]))]

/-- keys, numbers of rows and units of a saved file, for inspection -/
def inspect : PyObj Toy.N → Option (List String × ℕ × ℕ × ℕ × List Toy.N × List String)
  | .dict [(k0, .flt t0), (k1, .flt tf), (k2, .list ts), (k3, .dict u), (k4, .list ss), (k5, .list cs)] =>
    some ([k0, k1, k2, k3, k4, k5], ts.length, ss.length, cs.length, [t0, tf], u.map fun p => p.1)
  | _ => none

example : sampleUnits.Clean := ⟨trivial, ⟨trivial, trivial, trivial⟩, trivial, trivial⟩

/-- the file of a run with five recorded times -/
example : (((Toy.obj Toy.cfg Toy.prob).solve Toy.z Toy.z 10).bind fun p =>
    match p.1.saveToFile true sampleUnits false with
    | (.ok _, .complete j) => inspect j.load
    | _ => none) =
    some (["t0", "tf", "times", "canonical_units", "states", "controls"], 5, 5, 5, [.fin 0, .fin 2],
      ["LU", "body", "mu"]) := by decide +kernel

end PyQ
