import Verif.Model.Paging

/-!
# The threaded reader

Models mabel/data/readers/internals/threaded_wrapper.py: the reader (`processed_reader`, lines 70-121) and
its threads (`_inner_process`, lines 53-67) as a system of communicating processes.  A schedule (a list
of events) says who takes the next step; an event that is not possible in a state ends the run (`none`).

Blobs are numbered in the order they were given; `blobs` lists the pages `page_dictset` (C61) makes of
each.  Simplifications: both queues are first in, first out; parsing the records of a page does not fail;
polling is left out except where it changes what happens.
-/

namespace Mabel.Threads
open Mabel.Py

variable {π : Type}

/-- A message to the threads: a blob to read, or TERMINATE_SIGNAL. -/
inductive Msg
  | blob (b : Nat)
  | terminate
  deriving DecidableEq, Repr

/-- A message from the threads: a page of a blob, or END OF RECORDS (which does not say of which). -/
inductive Reply (π : Type)
  | page (b : Nat) (p : π)
  | fin (b : Nat)
  deriving DecidableEq, Repr

/-- Where a thread is (53-67).  `start`: before its first poll; `waiting`: polling for more, which it does
for ever; `working`: reading a blob, with the pages it has not sent yet; `told`: it received
TERMINATE_SIGNAL; `gaveUp`: nothing came within a second of its start (56-57); `crashed`: an exception. -/
inductive Worker (π : Type)
  | start
  | waiting
  | working (b : Nat) (rest : List π)
  | told
  | gaveUp
  | crashed (b : Nat)
  deriving DecidableEq, Repr

/-- Where the reader is: at the condition of its loop (92), taking replies (95-99), after the loop because
all threads have ended, or after the loop because 600 seconds have passed (108-113). -/
inductive Main | top | inner | done | abandoned
  deriving DecidableEq, Repr

structure State (π : Type) where
  sendQueue : List Msg
  replyQueue : List (Reply π)
  workers : List (Worker π)
  /-- `item_index` -/
  index : Nat
  /-- the replies taken so far -/
  received : List (Reply π)
  main : Main
  deriving DecidableEq, Repr

/-- threaded_wrapper.py:70-90: before the loop, for `n` threads (8 of them: line 73). -/
def init (blobs : List (List π)) (n : Nat) : State π where
  sendQueue := (List.range (min n blobs.length)).map .blob
  replyQueue := []
  workers := List.replicate n .start
  index := n
  received := []
  main := .top

/-- Who takes a step. -/
inductive Event
  /-- a thread takes a message -/
  | take (i : Nat)
  /-- a thread's first poll fails -/
  | giveUp (i : Nat)
  /-- a thread sends a page or END OF RECORDS -/
  | put (i : Nat)
  /-- reading a blob raises -/
  | crash (i : Nat)
  /-- the reader looks whether threads are alive -/
  | check
  /-- the reader takes a reply -/
  | receive
  /-- the reader finds no reply -/
  | empty
  /-- the reader finds no reply, and 600 seconds have passed -/
  | abandon
  deriving DecidableEq, Repr

/-- A thread that is polling for a message. -/
def Worker.polls : Worker π → Bool
  | .start => true
  | .waiting => true
  | _ => false

/-- `not p.is_alive()` -/
def Worker.stopped : Worker π → Bool
  | .told => true
  | .gaveUp => true
  | .crashed _ => true
  | _ => false

/-- One step; none if it is not possible. -/
def step (blobs : List (List π)) (s : State π) : Event → Option (State π)
  | .take i =>
    -- 54-55, 63-67: the next message, whichever thread gets it
    match s.workers[i]?, s.sendQueue with
    | some w, m :: q =>
      if w.polls then
        match m with
        | .blob b => some { s with sendQueue := q, workers := s.workers.set i (.working b ((blobs[b]?).getD [])) }
        | .terminate => some { s with sendQueue := q, workers := s.workers.set i .told }
      else none
    | _, _ => none
  | .giveUp i =>
    -- 56-57: only at the first poll, and only if there is nothing
    match s.workers[i]?, s.sendQueue with
    | some .start, [] => some { s with workers := s.workers.set i .gaveUp }
    | _, _ => none
  | .put i =>
    match s.workers[i]? with
    -- 60-61
    | some (.working b (p :: rest)) =>
      some { s with replyQueue := s.replyQueue ++ [.page b p], workers := s.workers.set i (.working b rest) }
    -- 62
    | some (.working b []) =>
      some { s with replyQueue := s.replyQueue ++ [.fin b], workers := s.workers.set i .waiting }
    | _ => none
  | .crash i =>
    match s.workers[i]? with
    | some (.working b _) => some { s with workers := s.workers.set i (.crashed b) }
    | _ => none
  | .check =>
    -- 92
    if s.main = .top then
      if s.workers.all Worker.stopped then some { s with main := .done } else some { s with main := .inner }
    else none
  | .receive =>
    -- 96-106
    if s.main = .inner then
      match s.replyQueue with
      | [] => none
      | .page b p :: q => some { s with replyQueue := q, received := s.received ++ [.page b p] }
      | .fin b :: q =>
        if s.index < blobs.length then
          some { s with replyQueue := q, received := s.received ++ [.fin b], main := .top,
                        sendQueue := s.sendQueue ++ [.blob s.index], index := s.index + 1 }
        else
          some { s with replyQueue := q, received := s.received ++ [.fin b], main := .top,
                        sendQueue := s.sendQueue ++ [.terminate] }
    else none
  -- 108
  | .empty => if s.main = .inner ∧ s.replyQueue.isEmpty then some { s with main := .top } else none
  -- 109-113
  | .abandon => if s.main = .inner ∧ s.replyQueue.isEmpty then some { s with main := .abandoned } else none

/-- A run under a schedule; none if the schedule asks for something impossible. -/
def exec (blobs : List (List π)) : List Event → State π → Option (State π)
  | [], s => some s
  | e :: es, s => match step blobs s e with
    | none => none
    | some s => exec blobs es s

/-- The pages handed out (99), in order, each with the blob it is from. -/
def output (s : State π) : List (Nat × π) :=
  s.received.filterMap fun
    | .page b p => some (b, p)
    | .fin _ => none

/-- Has the reader returned: after the loop all threads are waited for (120-121). -/
def returned (s : State π) : Bool :=
  (decide (s.main = .done) || decide (s.main = .abandoned)) && s.workers.all Worker.stopped

end Mabel.Threads
