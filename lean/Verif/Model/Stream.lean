import Verif.Model.Writer
import Verif.Model.Text

/-!
# WriterPool and StreamWriter

Models mabel/data/writers/internals/writer_pool.py and mabel/data/writers/stream_writer.py.

Simplifications, common to the file
* `time.time()` readings are the environment's choice: `clock` lists the coming ones (exhausted
  = 0); they need not increase;
* the inner writers of all blob writers store in one log, tagged with the identity (the target
  path the writer was created for);
* the locks created inside `remove_writer` are private to each call and never block; the module
  lock (stream_writer.py:16) is modelled in the section "Threads";
* StreamWriter.finalize also commits the base class's blob writer (stream_writer.py:172), to which
  the stream writer never appends, so that commit stores nothing;
* an attendant pass that raises ends the attendant thread: no later pass happens, which is one of
  the schedules considered.
-/

namespace Mabel.Stream
open Mabel.Py Mabel.Writer

variable {ρ : Type}

/-- The arguments of a StreamWriter: stream_writer.py:24-32. -/
structure Conf (ρ : Type) where
  blob : Writer.Config ρ
  poolSize : Int
  idle : Int

/-- writer_pool.py:44-48: a pool member. -/
structure Entry (ρ : Type) where
  identity : Str
  lastAccess : Int
  writer : Writer.State ρ

/-- writer_pool.py:20-25, with storage and the environment. -/
structure Pool (ρ : Type) where
  writers : List (Entry ρ) := []
  store : List (Str × Stored) := []
  faults : List Bool := []
  clock : List Int := []

/-- `time.time()` -/
def now (p : Pool ρ) : Int × Pool ρ :=
  match p.clock with
  | [] => (0, p)
  | t :: ts => (t, { p with clock := ts })

/-- Call a method of a pool member's BlobWriter: what it stores goes to the shared storage under
the member's identity. -/
def onWriter {α : Type} (p : Pool ρ) (e : Entry ρ) (act : Writer.State ρ → Writer.State ρ × Except Err α) :
    Pool ρ × Entry ρ × Except Err α :=
  let s := act { e.writer with store := [], faults := p.faults }
  ({ p with store := p.store ++ s.1.store.map (fun x => (e.identity, x)), faults := s.1.faults },
   { e with writer := { s.1 with store := [], faults := [] } }, s.2)

/-- Change the last element that satisfies the predicate (`[w for w in ...].pop()`). -/
def updateLast {α : Type _} (f : α → α) (q : α → Bool) : List α → List α
  | [] => []
  | x :: xs => if xs.any q then x :: updateLast f q xs else if q x then f x :: xs else x :: xs

/-- The last element that satisfies the predicate. -/
def findLast {α : Type _} (q : α → Bool) : List α → Option α
  | [] => none
  | x :: xs => match findLast q xs with
    | some y => some y
    | none => if q x then some x else none

/-- writer_pool.py:42-49 `create_writer` (the BlobWriter starts empty: blob_writer.py:28-53). -/
def createWriter (p : Pool ρ) (identity : Str) : Entry ρ × Pool ρ :=
  let (t, p) := now p
  ({ identity := identity, lastAccess := t, writer := {} }, p)

/-- writer_pool.py:27-40 `get_writer`; the member is returned by reference, so the model returns the
pool and later accesses find the member again by identity. -/
def getWriter (p : Pool ρ) (identity : Str) : Pool ρ :=
  if p.writers.any (fun w => w.identity == identity) then
    let (t, p) := now p
    { p with writers := updateLast (fun w => { w with lastAccess := t }) (fun w => w.identity == identity) p.writers }
  else
    let (w, p) := createWriter p identity
    { p with writers := p.writers ++ [w] }

/-- stream_writer.py:133-134 and 153-154: get the writer and append to it. -/
def writeTo (c : Conf ρ) (p : Pool ρ) (identity : Str) (r : ρ) : Pool ρ × Except Err Nat :=
  let p := getWriter p identity
  match findLast (fun w => w.identity == identity) p.writers with
  | none => (p, .error .indexError)       -- unreachable: get_writer has just put it there
  | some w =>
    let (p, w', res) := onWriter p w (fun s => blobAppend c.blob s r)
    ({ p with writers := updateLast (fun _ => w') (fun w => w.identity == identity) p.writers }, res)

/-- writer_pool.py:51-69 `remove_writer`: it leaves the pool, then commits.  When the commit raises,
the last reference to the blob writer goes with the traceback and its destructor
(blob_writer.py:211-213) commits once more; an exception there is ignored by Python. -/
def removeWriter (c : Conf ρ) (p : Pool ρ) (identity : Str) : Pool ρ × Except Err Unit :=
  match p.writers.filter (fun w => w.identity == identity) with
  | [w] =>
    let p := { p with writers := p.writers.filter (fun w => w.identity != identity) }
    match onWriter p w (commit c.blob) with
    | (p, _, .ok ()) => (p, .ok ())
    | (p, w, .error e) => ((onWriter p w (commit c.blob)).1, .error e)
  | _ => (p, .ok ())                      -- logged, nothing removed

/-- writer_pool.py:81-91 `nominate_writers_to_evict`. -/
def nominate (poolSize : Int) (writers : List (Entry ρ)) : List Str :=
  let byAge := sorted (fun a b => decide (a.lastAccess ≤ b.lastAccess)) writers
  (sliceTo (sliceTo byAge (writers.length - poolSize)) poolSize).map (·.identity)

/-- writer_pool.py:93-101 `get_stale_writers`. -/
def staleWriters (p : Pool ρ) (idle : Int) : List Str × Pool ρ :=
  let (t, p) := now p
  ((p.writers.filter (fun w => decide (t - w.lastAccess > idle))).map (·.identity), p)

/-- stream_writer.py:133-134, 145-155: one write per target, stopping at an exception. -/
def writeAll (c : Conf ρ) (p : Pool ρ) (r : ρ) : List Str → Pool ρ × Except Err Unit
  | [] => (p, .ok ())
  | t :: ts => match writeTo c p t r with
    | (p, .ok _) => writeAll c p r ts
    | (p, .error e) => (p, .error e)

/-- The eviction loops, stream_writer.py:181-187 and 189-193. -/
def removeAll (c : Conf ρ) (p : Pool ρ) : List Str → Pool ρ × Except Err Unit
  | [] => (p, .ok ())
  | t :: ts => match removeWriter c p t with
    | (p, .ok _) => removeAll c p ts
    | (p, .error e) => (p, .error e)

/-- stream_writer.py:189-193. -/
def evict (c : Conf ρ) (p : Pool ρ) : Pool ρ × Except Err Unit :=
  removeAll c p (nominate c.poolSize p.writers)

/-- stream_writer.py:179-193: one pass of the pool attendant. -/
def attend (c : Conf ρ) (p : Pool ρ) : Pool ρ × Except Err Unit :=
  let (ids, p) := staleWriters p c.idle
  match removeAll c p ids with
  | (p, .ok ()) => evict c p
  | (p, .error e) => (p, .error e)

/-- stream_writer.py:162-171: the loop of `finalize`; exceptions are logged and dropped. -/
def dropAll (c : Conf ρ) (p : Pool ρ) : List Str → Pool ρ
  | [] => p
  | t :: ts => dropAll c (removeWriter c p t).1 ts

/-- stream_writer.py:159-172 `finalize`. -/
def finalize (c : Conf ρ) (p : Pool ρ) : Pool ρ := dropAll c p (p.writers.map (·.identity))

/-- The critical sections of the module lock.  An append carries the targets computed from the
template and the record (`Verif/Model/Targets.lean`). -/
inductive Op (ρ : Type)
  | append (r : ρ) (targets : List Str)
  | attend
  | finalize

/-- One critical section, uninterrupted. -/
def step (c : Conf ρ) (p : Pool ρ) : Op ρ → Pool ρ
  | .append r ts => (writeAll c p r ts).1
  | .attend => (attend c p).1
  | .finalize => finalize c p

/-- Critical sections one after the other. -/
def run (c : Conf ρ) (p : Pool ρ) : List (Op ρ) → Pool ρ
  | [] => p
  | op :: ops => run c (step c p op) ops

/-! ## Threads

Any number of threads share the pool; each call takes the module lock (`with lock`,
stream_writer.py:127, 161, 179) and, while it holds it, the other threads may be scheduled between
any two of its pool operations. -/

/-- What remains to be done in a critical section. -/
inductive Cont (ρ : Type)
  | writes (r : ρ) (targets : List Str)
  | stale
  | removing (ids : List Str)
  | nominating
  | evicting (ids : List Str)
  | dropping (ids : List Str)
  | opening
  | done

/-- Entering the critical section. -/
def start : Op ρ → Cont ρ
  | .append r ts => .writes r ts
  | .attend => .stale
  | .finalize => .opening

/-- One pool operation of the thread that holds the lock; an exception leaves the section. -/
def micro (c : Conf ρ) (p : Pool ρ) : Cont ρ → Pool ρ × Cont ρ
  | .writes _ [] => (p, .done)
  | .writes r (t :: ts) => match writeTo c p t r with
    | (p, .ok _) => (p, .writes r ts)
    | (p, .error _) => (p, .done)
  | .stale => let (ids, p) := staleWriters p c.idle; (p, .removing ids)
  | .removing [] => (p, .nominating)
  | .removing (t :: ts) => match removeWriter c p t with
    | (p, .ok _) => (p, .removing ts)
    | (p, .error _) => (p, .done)
  | .nominating => (p, .evicting (nominate c.poolSize p.writers))
  | .evicting [] => (p, .done)
  | .evicting (t :: ts) => match removeWriter c p t with
    | (p, .ok _) => (p, .evicting ts)
    | (p, .error _) => (p, .done)
  | .opening => (p, .dropping (p.writers.map (·.identity)))
  | .dropping [] => (p, .done)
  | .dropping (t :: ts) => ((removeWriter c p t).1, .dropping ts)
  | .done => (p, .done)

/-- The whole system: the pool, the lock (with what its owner still has to do) and what each thread
has still to call. -/
structure Machine (ρ : Type) where
  pool : Pool ρ
  owner : Option (Nat × Cont ρ) := none
  todo : Nat → List (Op ρ)

/-- The scheduler picks any thread that can move. -/
inductive Sched (c : Conf ρ) : Machine ρ → Machine ρ → Prop
  | acquire (m : Machine ρ) (t : Nat) (op : Op ρ) (rest : List (Op ρ)) :
      m.owner = none → m.todo t = op :: rest →
      Sched c m { m with owner := some (t, start op), todo := fun u => if u = t then rest else m.todo u }
  | work (m : Machine ρ) (t : Nat) (k : Cont ρ) :
      m.owner = some (t, k) → k ≠ .done →
      Sched c m { m with pool := (micro c m.pool k).1, owner := some (t, (micro c m.pool k).2) }
  | release (m : Machine ρ) (t : Nat) :
      m.owner = some (t, .done) → Sched c m { m with owner := none }

/-- The state after any number of scheduling decisions. -/
inductive Reach (c : Conf ρ) : Machine ρ → Machine ρ → Prop
  | refl (m : Machine ρ) : Reach c m m
  | step {a b d : Machine ρ} : Reach c a b → Sched c b d → Reach c a d

end Mabel.Stream
