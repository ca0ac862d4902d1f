import Verif.Basic
/-!
# Model of `thread::worker_pool` (`utility/bits/thread-worker-pool.hpp`)

Queues are used through the interface proved in `QueueProps` (as in `Worker.lean`);
`workload()` is `size()` called from the producer thread, which is exact (`C47_size`).
The pool object is driven from one thread. Workers with and without a workspace behave the same
(lines 19-25 and 52-58).
-/
namespace Verif.Thread.Pool

/-- Program counter of a worker thread (lines 52-58). -/
inductive WPc (T : Type) where
  /-- `while (!shutdown)` -/
  | testShutdown
  /-- `while (input.pop(t))` -/
  | pop
  /-- `f(t)` running -/
  | run (t : T)
  | exited

structure W (T : Type) where
  queue : List T := []
  shutdown : Bool := false
  pc : WPc T := .testShutdown
  /-- ghost: items given to this worker, in order -/
  given : List T := []
  /-- ghost: items whose processing has finished, in order -/
  executed : List T := []

/-- Program counter of the driving thread. -/
inductive MPc where
  | idle
  /-- `consume_all` (lines 135-148), about to look at worker `i`; `i = size` means the pass found
  every queue empty -/
  | consume (i : Nat)
  /-- `join` (lines 112-120), first loop, about to set `workers[i]->shutdown` -/
  | setFlags (i : Nat)
  /-- second loop, joining worker `i` -/
  | joining (i : Nat)
  | joined

structure State (T : Type) where
  ws : List (W T)
  lastPush : Nat
  main : MPc := .idle
  /-- ghost: a `consume_all` has returned and nothing was given to `process` since -/
  drained : Bool := false

variable {T : Type}

/-- `start(n, f)`, lines 102-110, on a pool without running workers. `last_push = size()-1`. -/
def start (n : Nat) : State T := { ws := List.replicate n {}, lastPush := n - 1 }

/-- round robin target of `process(t)`, lines 123-126 -/
def nextTarget (size lastPush : Nat) : Nat := if lastPush + 1 ≥ size then 0 else lastPush + 1

def W.push (w : W T) (t : T) : W T := { w with queue := w.queue ++ [t], given := w.given ++ [t] }

inductive Step : State T → State T → Prop
  /-- `process(t)`, lines 122-129 -/
  | process (s : State T) (t : T) (w : W T) : s.main = .idle →
      s.ws[nextTarget s.ws.length s.lastPush]? = some w →
      Step s { s with ws := s.ws.set (nextTarget s.ws.length s.lastPush) (w.push t),
                      lastPush := nextTarget s.ws.length s.lastPush, drained := false }
  /-- `process(i, t)`, lines 131-133 -/
  | processAt (s : State T) (i : Nat) (t : T) (w : W T) : s.main = .idle → s.ws[i]? = some w →
      Step s { s with ws := s.ws.set i (w.push t), drained := false }
  | consumeCall (s : State T) : s.main = .idle → Step s { s with main := .consume 0 }
  /-- `workload() > 0` → `finished = false; break;`, restart the pass (lines 137-147) -/
  | consumeBusy (s : State T) (i : Nat) (w : W T) : s.main = .consume i → s.ws[i]? = some w →
      w.queue ≠ [] → Step s { s with main := .consume 0 }
  | consumeNext (s : State T) (i : Nat) (w : W T) : s.main = .consume i → s.ws[i]? = some w →
      w.queue = [] → Step s { s with main := .consume (i + 1) }
  | consumeRet (s : State T) : s.main = .consume s.ws.length →
      Step s { s with main := .idle, drained := true }
  | joinCall (s : State T) : s.main = .idle → Step s { s with main := .setFlags 0 }
  | setFlag (s : State T) (i : Nat) (w : W T) : s.main = .setFlags i → s.ws[i]? = some w →
      Step s { s with ws := s.ws.set i { w with shutdown := true }, main := .setFlags (i + 1) }
  | setFlagsEnd (s : State T) : s.main = .setFlags s.ws.length → Step s { s with main := .joining 0 }
  | joinOne (s : State T) (i : Nat) (w : W T) : s.main = .joining i → s.ws[i]? = some w →
      w.pc = .exited → Step s { s with main := .joining (i + 1) }
  | joinEnd (s : State T) : s.main = .joining s.ws.length → Step s { s with main := .joined }
  /-- worker `i`: `while (!shutdown)` -/
  | wTest (s : State T) (i : Nat) (w : W T) : s.ws[i]? = some w → w.pc = .testShutdown →
      Step s { s with ws := s.ws.set i { w with pc := if w.shutdown then .exited else .pop } }
  | wPop (s : State T) (i : Nat) (w : W T) (t : T) (q : List T) : s.ws[i]? = some w → w.pc = .pop →
      w.queue = t :: q → Step s { s with ws := s.ws.set i { w with queue := q, pc := .run t } }
  | wPopFail (s : State T) (i : Nat) (w : W T) : s.ws[i]? = some w → w.pc = .pop → w.queue = [] →
      Step s { s with ws := s.ws.set i { w with pc := .testShutdown } }
  | wRun (s : State T) (i : Nat) (w : W T) (t : T) : s.ws[i]? = some w → w.pc = .run t →
      Step s { s with ws := s.ws.set i { w with pc := .pop, executed := w.executed ++ [t] } }

inductive Reach (n : Nat) : State T → Prop
  | init : Reach n (start n)
  | step {s t} : Reach n s → Step s t → Reach n t

end Verif.Thread.Pool
