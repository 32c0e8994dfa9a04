import Verif.Py.Basic
import Verif.Py.Num

/-!
# Rendering the error that is being handled: mabel/errors/render_error_stack.py

Errors are objects that refer to one another, so there is a heap of them; references are numbers.  The libraries are
parameters (`Lib`): `os.path.abspath`, `pathlib`, reading a file and splitting it into lines, and `textwrap.fill`.
-/

namespace Mabel.ErrorStack
open Mabel.Py

/-- A frame of a traceback, as the interpreter has it: the name of the file of the code, the line, the name of the
function and the local variables with what `str` of them gives, which may raise. -/
structure Raw where
  file : Str
  line : Nat
  name : Str
  locals : List (Str × Except Err Str)

/-- An error object.  `traceback = none` is that of an error that has never been raised; `truthy` is `bool` of it, which a
class may define; `str` of it may raise. -/
structure Exc where
  type : Str
  value : Except Err Str
  truthy : Bool := true
  traceback : Option (List Raw)
  cause : Option Nat := none
  context : Option Nat := none
  suppress : Bool := false

abbrev Heap := Nat → Exc

/-- What is used of libraries. -/
structure Lib where
  abspath : Str → Str
  lines : Str → Option (List Str)      -- `open(...).read().splitlines()`, if it can be done
  base : Str → Str                     -- `path.stem + path.suffix`
  fill : Str → Str                     -- `textwrap.fill(line, 120)`

/-- render_error_stack.py:24 -/
def lineLength : Nat := 120

/-- render_error_stack.py:28-34 `Frame` (its `line` is never set). -/
structure Frame where
  filename : Str
  lineno : Nat
  name : Str
  locals : List (Str × Except Err Str)

/-- render_error_stack.py:37-42 `Stack` -/
structure Stack where
  exc_type : Str
  exc_value : Str
  is_cause : Bool
  frames : List Frame

/-- Where `str.splitlines` splits. -/
def isBreak (c : Char) : Bool :=
  c = '\n' || c = '\r' || c = '\x0b' || c = '\x0c' || c = '\x1c' || c = '\x1d' || c = '\x1e' || c = '\u0085' ||
  c = '\u2028' || c = '\u2029'

/-- `str.splitlines`, with what has been read of a line. -/
def splitlinesGo : Str → Str → List Str
  | cur, [] => if cur = [] then [] else [cur]
  | cur, c :: cs =>
    if isBreak c then
      if c = '\r' ∧ cs.head? = some '\n' then cur :: splitlinesGo [] cs.tail else cur :: splitlinesGo [] cs
    else splitlinesGo (cur ++ [c]) cs
  termination_by _ s => s.length
  decreasing_by all_goals simp_all <;> omega

/-- `str.splitlines()` -/
def splitlines (s : Str) : List Str := splitlinesGo [] s

/-- render_error_stack.py:45-52 `wrap_text`; also utils/text.py:19-26. -/
def wrapText (lib : Lib) (text : Str) : Str := join ['\n'] ((splitlines text).map lib.fill)

/-- `s.center(width)` for an even width (CPython pads the shorter half on the left). -/
def center (width : Nat) (s : Str) : Str :=
  List.replicate ((width - s.length) / 2) ' ' ++ s ++ List.replicate (width - s.length - (width - s.length) / 2) ' '

/-- render_error_stack.py:55-60 `bar_label`; `replace` of one character by another is done character by character. -/
def barLabel (label : Str) : Str :=
  if label.length > 0 then
    ((center lineLength ("**".toList ++ label ++ "**".toList)).map (fun c => if c = ' ' then '=' else c)).map
      (fun c => if c = '*' then ' ' else c)
  else List.replicate lineLength '-'

/-- render_error_stack.py:79-88: the frames of a traceback (`walk_tb`; of `None` there are none). -/
def framesOf (lib : Lib) (traceback : Option (List Raw)) : List Frame :=
  (traceback.getD []).map fun r =>
    { filename := if r.file ≠ [] then lib.abspath r.file else ['?'], lineno := r.line, name := r.name, locals := r.locals }

/-- render_error_stack.py:90-91,99-100: an error that is true and has a traceback. -/
def shown (h : Heap) (i : Nat) : Bool := (h i).truthy && (h i).traceback.isSome

/-- render_error_stack.py:90-108: the error to go on with, and whether it is a cause. -/
def next (h : Heap) (e : Exc) : Option (Nat × Bool) :=
  match e.cause.filter (shown h) with
  | some j => some (j, true)
  | none =>
    match e.context.filter (shown h) with
    | some j => if e.suppress then none else some (j, false)
    | none => none

/-- render_error_stack.py:73-109: at most so many rounds of the loop; `none` if it has not come to its end by then. -/
def walk (lib : Lib) (h : Heap) : Nat → Nat → Bool → Option (Except Err (List Stack))
  | 0, _, _ => none
  | n + 1, i, isCause =>
    match (h i).value with
    | .error e => some (.error e)
    | .ok value =>
      let stack : Stack := ⟨(h i).type, value, isCause, framesOf lib (h i).traceback⟩
      match next h (h i) with
      | none => some (.ok [stack])
      | some (j, c) => (walk lib h n j c).map fun r => r.map (stack :: ·)

/-- render_error_stack.py:63-109 `_build_error_stack`; `current` is the error of `sys.exc_info()`. -/
def build (lib : Lib) (h : Heap) (rounds : Nat) (current : Option Nat) : Option (Except Err (List Stack)) :=
  match current with
  | none => some (.ok [])
  | some i => walk lib h rounds i false

/-- `f"{key:<{width}}"` -/
def ljust (width : Nat) (s : Str) : Str := s ++ List.replicate (width - s.length) ' '

/-- `f"{n:4d}"` -/
def rjust (width : Nat) (s : Str) : Str := List.replicate (width - s.length) ' ' ++ s

/-- render_error_stack.py:112-117 `_render_locals` -/
def renderLocals (locals : List (Str × Except Err Str)) : Except Err (List Str) :=
  if locals.isEmpty then .ok []
  else
    let width := (locals.map fun kv => kv.1.length).foldl max 0
    (locals.mapM fun (kv : Str × Except Err Str) =>
        kv.2.map fun v => "  ".toList ++ ljust width kv.1 ++ " : ".toList ++ v).map (barLabel "locals".toList :: ·)

/-- render_error_stack.py:132-135: the loop over the lines; an error ends it (line 136). -/
def codeLoop (lines : List Str) (line : Nat) : List Nat → List Str
  | [] => []
  | k :: ks =>
    match index lines ((k : Int) - 1) with
    | .error _ => []
    | .ok text => ((if k = line then ['>'] else [' ']) ++ rjust 4 (natStr k) ++ " | ".toList ++ text) :: codeLoop lines line ks

/-- render_error_stack.py:120-137 `_read_from_code` -/
def readFromCode (lib : Lib) (filename : Str) (line extend : Nat) : List Str :=
  match lib.lines filename with
  | none => []
  | some lines =>
    let start := line - extend
    let stop := min (line + extend + 1) (lines.length + 1)
    barLabel (lib.base filename) :: codeLoop lines line ((List.range (stop - start)).map (start + ·))

/-- render_error_stack.py:144: the line that names a frame. -/
def heading (f : Frame) : Str := f.filename ++ [':'] ++ natStr f.lineno ++ " in ".toList ++ f.name ++ "()".toList

/-- render_error_stack.py:143-151: the lines for a frame. -/
def renderFrame (lib : Lib) (f : Frame) : Except Err (List Str) :=
  if f.filename.head? = some '<' then .ok [heading f]
  else
    match renderLocals f.locals with
    | .error e => .error e
    | .ok locals => .ok (heading f :: locals ++ readFromCode lib f.filename f.lineno 3 ++ [barLabel [], []])

/-- render_error_stack.py:140-151 `_render_error_stack` -/
def renderLines (lib : Lib) (stack : List Stack) : Except Err (List Str) :=
  ((stack.flatMap (·.frames)).mapM (renderFrame lib)).map List.flatten

/-- render_error_stack.py:154-156 `render_error_stack`, with at most so many rounds of the loop. -/
def render (lib : Lib) (h : Heap) (rounds : Nat) (current : Option Nat) : Option (Except Err Str) :=
  (build lib h rounds current).map fun r =>
    match r with
    | .error e => .error e
    | .ok stack => (renderLines lib stack).map fun lines => join ['\n'] (lines.map (wrapText lib))

end Mabel.ErrorStack
