import Verif.Basic
/-!
# Model of `thread::worker` (`utility/bits/thread-worker.hpp`)

The job queue is the `lock_free_queue` of `Queue.lean`, used here through its proved interface: a
published `push` appends, `pop` takes the oldest element or fails if there is none, `empty` tests
(theorems `C47_fifo`, `C47_pop_false_iff`, `C47_pop_value`). The public API (`push`, `wait`) is
called from one thread; jobs do not call it. The sleeping between polls only delays and is kept as
a step of its own.
-/
namespace Verif.Thread.Worker

/-- Program counter of the consumer thread (`consume_loop_`, lines 12-21). -/
inductive CPc (J : Type) where
  /-- line 13, load of `stop_on_empty_` -/
  | testStop
  /-- line 13, `jobs_.empty()` (evaluated because `stop_on_empty_` was true) -/
  | testEmpty
  /-- line 15, `jobs_.pop(job)` -/
  | pop
  /-- line 16, `job()` running -/
  | run (j : J)
  /-- line 19 -/
  | sleep
  /-- `consume_loop_` returned -/
  | exited

/-- Program counter of the user thread. -/
inductive UPc (J : Type) where
  | idle
  /-- `push` (lines 31-39) before the publication in the queue -/
  | pushing (j : J)
  /-- `wait` (lines 41-48) blocked in `join` after setting `stop_on_empty_` -/
  | joining

structure State (J : Type) where
  stop : Bool := false
  queue : List J := []
  /-- `thread_`, `none` = null pointer -/
  thread : Option (CPc J) := none
  user : UPc J := .idle
  /-- ghost: all jobs given to `push` (published), in order -/
  pushed : List J := []
  /-- ghost: jobs whose execution has finished, in order -/
  executed : List J := []
  /-- ghost: number of `wait` calls that returned -/
  waits : Nat := 0

variable {J : Type}

inductive Step : State J → State J → Prop
  /-- `push(j)`: creates the thread if there is none (lines 32-36) -/
  | pushCall (s : State J) (j : J) : s.user = .idle →
      Step s { s with user := .pushing j,
                      thread := match s.thread with | none => some .testStop | some c => some c }
  /-- `jobs_.push` (line 38) -/
  | pushPublish (s : State J) (j : J) : s.user = .pushing j →
      Step s { s with user := .idle, queue := s.queue ++ [j], pushed := s.pushed ++ [j] }
  /-- `wait()` without a thread returns immediately (line 42) -/
  | waitNone (s : State J) : s.user = .idle → s.thread = none →
      Step s { s with waits := s.waits + 1 }
  /-- `wait()`: `stop_on_empty_ = true` (line 43) -/
  | waitStop (s : State J) (c : CPc J) : s.user = .idle → s.thread = some c →
      Step s { s with user := .joining, stop := true }
  /-- `join` succeeds once the thread has returned (lines 44-46) -/
  | waitJoin (s : State J) : s.user = .joining → s.thread = some .exited →
      Step s { s with user := .idle, thread := none, stop := false, waits := s.waits + 1 }
  | cTestStop (s : State J) : s.thread = some .testStop →
      Step s { s with thread := some (if s.stop then .testEmpty else .pop) }
  | cTestEmpty (s : State J) : s.thread = some .testEmpty →
      Step s { s with thread := some (if s.queue.isEmpty then .exited else .pop) }
  | cPopOk (s : State J) (j : J) (q : List J) : s.thread = some .pop → s.queue = j :: q →
      Step s { s with thread := some (.run j), queue := q }
  | cPopFail (s : State J) : s.thread = some .pop → s.queue = [] →
      Step s { s with thread := some .sleep }
  | cRun (s : State J) (j : J) : s.thread = some (.run j) →
      Step s { s with thread := some .pop, executed := s.executed ++ [j] }
  | cSleep (s : State J) : s.thread = some .sleep →
      Step s { s with thread := some .testStop }

inductive Reach : State J → Prop
  | init : Reach {}
  | step {s t} : Reach s → Step s t → Reach t

end Verif.Thread.Worker
