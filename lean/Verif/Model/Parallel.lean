import Verif.Model.Blobs
import Verif.Py.Value

/-!
# The multi-process reader

Models mabel/data/readers/internals/multiprocess_wrapper.py: the reader (`processed_reader`) and its
worker processes (`_inner_process`) as a system of communicating processes.  A schedule (a list of
events) says who takes the next step; an event that is not possible in a state ends the run (`none`).

Simplifications: both queues are first in, first out and unbounded (a worker that waits for room in the
reply queue is a worker that has not taken its `reply` step yet); the compression (lz4) is undone
exactly; the polling of queues with timeouts is left out, except where a timeout changes what happens:
a worker's first poll (`giveUp`), a failure to put a reply (`crash`) and the limit of 600 seconds
(`abandon`).
-/

namespace Mabel.Parallel
open Mabel.Py

/-- A message to the workers: a blob to read, or TERMINATE_SIGNAL. -/
inductive Msg
  | blob (b : Str)
  | terminate
  deriving DecidableEq, Repr

/-- Where a worker is (multiprocess_wrapper.py:56-78).
`start`: before its first poll; `waiting`: polling for more; `working`: reading a blob;
`told`: it received TERMINATE_SIGNAL; `gaveUp`: nothing came within a second of its start (59-60);
`crashed`: an exception while reading a blob or replying. -/
inductive Worker
  | start
  | waiting
  | working (b : Str)
  | told
  | gaveUp
  | crashed
  deriving DecidableEq, Repr

/-- How the reader ended: all done (112-116), or after 600 seconds (126-131). -/
inductive Ended | done | abandoned
  deriving DecidableEq, Repr

structure State where
  sendQueue : List Msg
  replyQueue : List Str
  workers : List Worker
  /-- `item_index` -/
  index : Nat
  /-- the blobs whose records were delivered, in order -/
  delivered : List Str
  ended : Option Ended
  deriving DecidableEq, Repr

/-- multiprocess_wrapper.py:90: the number of workers. -/
def slots (items : List Str) (cpus : Nat) : Nat := max (min items.length (cpus - 1)) 2

/-- multiprocess_wrapper.py:91-110: before the loop. -/
def init (items : List Str) (n : Nat) : State where
  sendQueue := (items.take n).map .blob
  replyQueue := []
  workers := List.replicate n .start
  index := n
  delivered := []
  ended := none

/-- Who takes a step. -/
inductive Event
  | take (i : Nat)
  | giveUp (i : Nat)
  | reply (i : Nat)
  | crash (i : Nat)
  | receive
  | finish
  | abandon
  deriving DecidableEq, Repr

/-- A worker that is polling for a message. -/
def Worker.polls : Worker → Bool
  | .start => true
  | .waiting => true
  | _ => false

/-- `not p.is_alive()` -/
def Worker.stopped : Worker → Bool
  | .told => true
  | .gaveUp => true
  | .crashed => true
  | _ => false

/-- One step; none if it is not possible. -/
def step (items : List Str) (s : State) : Event → Option State
  | .take i =>
    -- 57-58, 73-78: the next message, whichever worker gets it
    match s.workers[i]?, s.sendQueue with
    | some w, m :: q =>
      if w.polls then
        match m with
        | .blob b => some { s with sendQueue := q, workers := s.workers.set i (.working b) }
        | .terminate => some { s with sendQueue := q, workers := s.workers.set i .told }
      else none
    | _, _ => none
  | .giveUp i =>
    -- 59-60: only at the first poll
    match s.workers[i]? with
    | some .start => some { s with workers := s.workers.set i .gaveUp }
    | _ => none
  | .reply i =>
    -- 68-72
    match s.workers[i]? with
    | some (.working b) =>
      some { s with replyQueue := s.replyQueue ++ [b], workers := s.workers.set i .waiting }
    | _ => none
  | .crash i =>
    match s.workers[i]? with
    | some (.working _) => some { s with workers := s.workers.set i .crashed }
    | _ => none
  | .receive =>
    -- 117-124
    if s.ended.isSome then none else
    match s.replyQueue with
    | [] => none
    | b :: q =>
      match items[s.index]? with
      | some x => some { s with replyQueue := q, delivered := s.delivered ++ [b],
                                sendQueue := s.sendQueue ++ [.blob x], index := s.index + 1 }
      | none => some { s with replyQueue := q, delivered := s.delivered ++ [b],
                              sendQueue := s.sendQueue ++ [.terminate] }
  | .finish =>
    -- 112-116: the loop's condition is false
    if s.ended.isSome then none
    else if s.workers.all Worker.stopped && s.replyQueue.isEmpty && s.sendQueue.isEmpty then
      some { s with ended := some .done }
    else none
  -- 126-131
  | .abandon => if s.ended.isSome then none else some { s with ended := some .abandoned }

/-- A run under a schedule; none if the schedule asks for something impossible. -/
def exec (items : List Str) : List Event → State → Option State
  | [], s => some s
  | e :: es, s => match step items s e with
    | none => none
    | some s => exec items es s

/-- The records delivered: those of each blob together. -/
def output {ρ : Type} (content : Str → List ρ) (s : State) : List ρ := s.delivered.flatMap content

/-! ## What goes through the queue -/

/-- `b"\n".join(...)` -/
def joinNewline : List Blobs.Bytes → Blobs.Bytes
  | [] => []
  | [b] => b
  | b :: bs => b ++ [10] ++ joinNewline bs

/-- multiprocess_wrapper.py:25-47 `fix_dict` on a record: text, numbers and truth values stay, everything
else becomes text (of the values modelled, None). -/
def fixValue : Value → Value
  | .none => .str "None".toList
  | v => v

def fixDict (r : Record) : Record := r.map (fun kv => (kv.1, fixValue kv.2))

/-- multiprocess_wrapper.py:68-71: a worker's reply (before compression). -/
def pack (dumps : Record → Blobs.Bytes) (rs : List Record) : Blobs.Bytes :=
  joinNewline (rs.map (fun r => dumps (fixDict r)))

/-- multiprocess_wrapper.py:119: the records of a reply. -/
def unpack (loads : Blobs.Bytes → Except Err Record) (b : Blobs.Bytes) : Except Err (List Record) :=
  ((Blobs.splitNewline [] b).filter (fun l => l ≠ [])).mapM loads

end Mabel.Parallel
