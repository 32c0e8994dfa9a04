import Verif.Py.Basic

/-!
# Parameter validation

Models mabel/utils/parameter_validator.py.

Simplifications: what is written to the log is left out, except for the suggestions for a misspelt name;
a Python set (`valid_parameters`) is the list of its members in order of first mention (the code only
tests membership in it, and makes the list of suggestions in the set's arbitrary order); `str.lower` is
a parameter; every rule has a name.
-/

namespace Mabel.Validator
open Mabel.Py

/-! ## Levenshtein distance -/

/-- The matrix, a list of lists in the code; `m x y` is `matrix[x][y]`. -/
abbrev Matrix := Nat → Nat → Nat

/-- `matrix[x][y] = v` -/
def Matrix.put (m : Matrix) (x y v : Nat) : Matrix := fun a b => if a = x ∧ b = y then v else m a b

/-- parameter_validator.py:26-31: the value for one cell. -/
def cell (w1 w2 : Str) (m : Matrix) (x y : Nat) : Nat :=
  if w1[x - 1]? = w2[y - 1]? then min (min (m (x - 1) y + 1) (m (x - 1) (y - 1))) (m x (y - 1) + 1)
  else min (min (m (x - 1) y + 1) (m (x - 1) (y - 1) + 1)) (m x (y - 1) + 1)

/-- parameter_validator.py:18-22: the first column and the first row. -/
def borders (w1 w2 : Str) : Matrix :=
  let m : Matrix := fun _ _ => 0
  let m := (List.range (w1.length + 1)).foldl (fun m x => m.put x 0 x) m
  (List.range (w2.length + 1)).foldl (fun m y => m.put 0 y y) m

/-- parameter_validator.py:24-31: the rest of one row. -/
def fillRow (w1 w2 : Str) (m : Matrix) (x : Nat) : Matrix :=
  (List.range' 1 w2.length).foldl (fun m y => m.put x y (cell w1 w2 m x y)) m

/-- parameter_validator.py:9-34 `get_levenshtein_distance`. -/
def distance (lower : Str → Str) (word1 word2 : Str) : Nat :=
  let w2 := lower word2
  let w1 := lower word1
  let m := (List.range' 1 w1.length).foldl (fillRow w1 w2) (borders w1 w2)
  m w1.length w2.length

/-! ## Validation of a call -/

/-- One rule; a missing key counts as false or empty. -/
structure Rule where
  name : Str
  required : Bool
  incompatible : List Str
  deriving DecidableEq, Repr

/-- What the decorator needs to know about a value: its truth and its attribute RULES, if it has one. -/
structure Values (τ : Type) where
  truthy : τ → Bool
  rules : τ → Option (List Rule)

variable {τ α : Type}

/-- `entered_parameters[name] = value` -/
def enter (d : List (Str × τ)) (k : Str) (v : τ) : List (Str × τ) :=
  if d.any (fun kv => kv.1 == k) then d.map (fun kv => if kv.1 = k then (k, v) else kv) else d ++ [(k, v)]

/-- parameter_validator.py:52-55: positional arguments are entered under the names of the function's
parameters; more arguments than parameters is an IndexError. -/
def entered (params : List Str) : List τ → List (Str × τ) → Except Err (List (Str × τ))
  | [], d => .ok d
  | v :: vs, d =>
    match params with
    | [] => .error .indexError
    | p :: ps => entered ps vs (enter d p v)

/-- parameter_validator.py:57-61: the rules, with those of the arguments that bring their own. -/
def allRules (vals : Values τ) (rules : List Rule) (d : List (Str × τ)) : List Rule :=
  d.foldl (fun rs kv => match vals.rules kv.2 with | some more => rs ++ more | none => rs) rules

/-- parameter_validator.py:67: is a name on the list of parameters? -/
def known (rules : List Rule) (name : Str) : Bool := rules.any (fun r => r.name == name)

/-- parameter_validator.py:70-73: the suggestions for a name that is not. -/
def suggestions (lower : Str → Str) (rules : List Rule) (name : Str) : List Str :=
  ((rules.map (·.name)).eraseDups).filter (fun valid => distance lower name valid ≤ valid.length / 2)

/-- `name in entered_parameters` -/
def has (d : List (Str × τ)) (name : Str) : Bool := d.any (fun kv => kv.1 == name)

/-- parameter_validator.py:64-92: is there a parameter that is not on the list? -/
def unknown (rules : List Rule) (d : List (Str × τ)) : Bool := d.any (fun kv => !known rules kv.1)

/-- parameter_validator.py:95-107: is a required parameter missing? -/
def missing (rules : List Rule) (d : List (Str × τ)) : Bool :=
  (rules.filter (·.required)).any (fun r => !has d r.name)

/-- parameter_validator.py:118-136: is there an incompatible combination?  (Only `self.rules` are looked at.) -/
def toxic (vals : Values τ) (rules : List Rule) (d : List (Str × τ)) : Bool :=
  (rules.filter (fun r => !r.incompatible.isEmpty)).any (fun r =>
    has d r.name && ((d.find? (fun kv => kv.1 == r.name)).elim false (fun kv => vals.truthy kv.2)) &&
      r.incompatible.any (fun t => has d t))

/-- What a call does: it is refused, or the function is called. -/
inductive Call (α : Type)
  | refused (e : Err)
  | ran (result : α)
  deriving DecidableEq, Repr

/-- parameter_validator.py:44-140 `validate.__call__`: the decorated function. -/
def call (vals : Values τ) (rules : List Rule) (params : List Str)
    (func : List τ → List (Str × τ) → α) (args : List τ) (kwargs : List (Str × τ)) : Call α :=
  match entered params args kwargs with
  | .error e => .refused e
  | .ok d =>
    let my := allRules vals rules d
    let hasErrors := false
    let hasErrors := if unknown my d then true else hasErrors
    let hasErrors := if missing my d then true else hasErrors
    let hasErrors := if toxic vals rules d then true else hasErrors
    if hasErrors then .refused .invalidReaderConfig
    else .ran (func args kwargs)

/-- mabel/data/readers/reader.py:25-42: the rules of `Reader`. -/
def readerRules : List Rule :=
  [⟨"cursor".toList, false, []⟩, ⟨"dataset".toList, true, []⟩, ⟨"end_date".toList, false, []⟩,
   ⟨"freshness_limit".toList, false, []⟩, ⟨"inner_reader".toList, false, []⟩,
   ⟨"raw_path".toList, false, ["freshness_limit".toList]⟩, ⟨"select".toList, false, []⟩,
   ⟨"start_date".toList, false, []⟩, ⟨"filters".toList, false, []⟩, ⟨"persistence".toList, false, []⟩,
   ⟨"override_format".toList, false, []⟩, ⟨"multiprocess".toList, false, ["cursor".toList]⟩,
   ⟨"valid_dataset_prefixes".toList, false, []⟩, ⟨"partitions".toList, false, ["raw_path".toList]⟩,
   ⟨"partition_filter".toList, false, ["freshness_limit".toList]⟩, ⟨"project".toList, false, []⟩]

end Mabel.Validator
