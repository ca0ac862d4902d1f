import Verif.Core.Range
/-!
# Model of `thread::parallel_for` (`utility/bits/thread-parallel-for.hpp`)

Atomic steps: one `query_chunk` (it runs entirely under `query_mutex`, lines 54-71) and one call
`f(i)` (line 32). Between two steps any worker may be scheduled. The progress printing
(`verbose`) does not influence which indices are run and is left out. `uint_t` is `Nat`
(`i1 += di` does not wrap for any range that fits half of the 64-bit space).
-/
namespace Verif.Thread.ParallelFor
open Verif

/-- A worker thread (`worker_t::start`, lines 26-39): indices of the current chunk still to be
run, and whether `query_chunk` returned `false` (thread function returned). -/
structure Worker where
  todo : List Int := []
  done : Bool := false
deriving Repr, DecidableEq

structure State where
  n : Nat
  di : Nat
  i0 : Nat
  i1 : Nat
  workers : List Worker
  /-- indices on which `f` has been called so far, oldest first -/
  log : List Int := []
deriving Repr, DecidableEq

/-- Setup part of `execute`, lines 87,100-106; `w` workers, `w ≥ 1`. -/
def nchunk (w chunkSize n : Nat) : Nat :=
  if chunkSize = 0 then w else max w (n / chunkSize)

def start (w chunkSize ifirst ilast : Nat) : State :=
  let n := ilast - ifirst
  let di := n / nchunk w chunkSize n + 1
  { n := n, di := di, i0 := ifirst, i1 := ifirst + di, workers := List.replicate w {} }

/-- `query_chunk`, lines 54-71, called by a worker that has finished its chunk. -/
def query (s : State) : State × Worker :=
  if s.i0 = s.n then (s, { todo := [], done := true })
  else
    let t := Core.range2 s.i0 s.i1          -- `for (uint_t i : range(i0, i1))`, line 31
    let i1' := s.i1 + s.di
    let i1'' := if i1' > s.n then s.n else i1'
    ({ s with i0 := s.i1, i1 := i1'' }, { todo := t, done := false })

/-- One atomic step of some worker. -/
inductive Step : State → State → Prop
  | query (s : State) (a b : List Worker) (hw : s.workers = a ++ ⟨[], false⟩ :: b) :
      Step s { (query s).1 with workers := a ++ (query s).2 :: b }
  | call (s : State) (a b : List Worker) (i : Int) (is : List Int)
      (hw : s.workers = a ++ ⟨i :: is, false⟩ :: b) :
      Step s { s with workers := a ++ ⟨is, false⟩ :: b, log := s.log ++ [i] }

/-- `k` steps of any schedule. -/
inductive Steps : Nat → State → State → Prop
  | refl (s) : Steps 0 s s
  | tail {k s t u} : Steps k s t → Step t u → Steps (k + 1) s u

/-- All worker threads have returned, i.e. `join` of every thread succeeds (lines 127-130). -/
def State.Joined (s : State) : Prop := ∀ w ∈ s.workers, w.done = true

/-- Single-threaded path, lines 89-97. -/
def sequential (ifirst ilast : Nat) : List Int := Core.range2 ifirst ilast

end Verif.Thread.ParallelFor
