import Verif.Model.Records

/-!
# The context of a job: mabel/utils/common.py

Values are of any type `V`; the file system, the JSON library and the facts about values that are used are parameters.
-/

namespace Mabel.Context
open Mabel.Py

/-- A dictionary. -/
abbrev Dict (V : Type) := List (Str × V)

/-- What JSON text may hold: an object or something else. -/
inductive Json (V : Type)
  | object (d : Dict V)
  | other

structure World (V : Type) where
  glob : Str → List Str                    -- `glob.glob("**/" + name, recursive=True)`, in whatever order it gives
  file : Str → Except Err Str              -- `open(...).read()`
  loads : Str → Except Err (Json V)        -- `orjson.loads`: its error is a ValueError (JSONDecodeError)
  truthy : V → Bool
  asText : V → Option Str                  -- the value, if it is a string
  empty : V                                -- `{}`

/-- `"**/" + name` and `.pop()` of the matches: common.py:16, the last of them; IndexError if there are none. -/
def locate {V : Type} (w : World V) (name : Str) : Except Err Str :=
  match (w.glob name).getLast? with
  | some f => .ok f
  | none => .error .indexError

/-- common.py:13-31 `read_config`: the errors are raised again, with another message, as they were; those of the JSON
library are ValueErrors. -/
def readConfig {V : Type} (w : World V) (name : Str) : Except Err (Json V) :=
  match locate w name with
  | .error e => .error e
  | .ok f =>
    match w.file f with
    | .error e => .error e
    | .ok text => w.loads text

/-- `{**config, **kwargs}`: common.py:40. -/
def merge {V : Type} (config kwargs : Dict V) : Dict V := kwargs.foldl (fun d kv => Records.put d kv.1 kv.2) config

/-- common.py:7-42 `build_context` -/
def buildContext {V : Type} (w : World V) (kwargs : Dict V) : Except Err (Dict V) :=
  let name : Except Err Str :=
    match kwargs.lookup "config_file".toList with
    | none => .ok "config.json".toList
    | some v => match w.asText v with
      | some s => .ok s
      | none => .error .typeError            -- `"**/" + config_file`
  match name with
  | .error e => .error e
  | .ok name =>
    match readConfig w name with
    | .error e => .error e
    | .ok .other => .error .attributeError    -- `config.get`
    | .ok (.object config) =>
      let config := match config.lookup "config".toList with
        | some v => if w.truthy v then config else Records.put config "config".toList w.empty
        | none => Records.put config "config".toList w.empty
      .ok (merge config kwargs)

end Mabel.Context
