import Verif.Basic
/-!
# Model of `thread::lock_free_queue` (`utility/bits/thread-queue.hpp`)

Small-step model at the granularity of single memory accesses, with an explicit heap whose
addresses may be reused after `delete`. One producer and one consumer thread interleave
arbitrarily. A dereference of an address that is not allocated, a null dereference, or a `delete`
of an address that is not allocated is the outcome `fault`.

Memory order: the code uses `std::atomic` with the default sequentially consistent order, so the
atomic accesses (`dummy_`, `last_`) interleave. The plain accesses (`next`, `data`) are shown to be
free of data races in `QueueProps`, which is what makes interleaving semantics adequate for them.

Not modelled: exceptions thrown by `new` or by the element type.
-/
namespace Verif.Thread.Queue

abbrev Addr := Nat

/-- `struct node`, lines 14-21. `data = none` is the value-initialised or moved-from payload,
`next = none` is `nullptr`. -/
structure Node (T : Type) where
  data : Option T
  next : Option Addr

/-- Program counter of the producer. -/
inductive PPc (T : Type) where
  /-- not inside a call -/
  | idle
  /-- line 54, `new node(t)` -/
  | alloc (x : T)
  /-- line 54, store to `(*last_).next` -/
  | link (x : T) (a : Addr)
  /-- line 55, load of `(*last_).next` -/
  | readLast (x : T)
  /-- line 55, store to `last_` -/
  | publish (x : T) (a : Addr)
  /-- line 58, comparison of `first_` with `dummy_` -/
  | loop
  /-- lines 59-60, `temp = first_; first_ = temp->next` -/
  | unlink
  /-- line 61, `delete temp` -/
  | free (temp : Addr)
  /-- `size()` lines 85-96 called from the producer thread (as `worker_pool::consume_all` does):
  `tmp`, `end`, `n`, and a ghost copy of the number of stored elements when `dummy_` was loaded -/
  | size (tmp stop : Addr) (n snap : Nat)

/-- Program counter of the consumer. -/
inductive CPc (T : Type) where
  | idle
  /-- line 70, comparison of `dummy_` with `last_` -/
  | test
  /-- line 72, load of `(*dummy_).next` -/
  | readNext
  /-- line 72, move out of `a->data` -/
  | moveOut (a : Addr)
  /-- line 73, load of `(*dummy_).next` -/
  | readNext2 (t : Option T)
  /-- line 73, store to `dummy_` -/
  | advance (t : Option T) (a : Addr)
  /-- `size()` called from the consumer thread -/
  | size (tmp stop : Addr) (n snap : Nat)

structure State (T : Type) where
  heap : Addr → Option (Node T)
  first : Addr
  dummy : Addr
  last : Addr
  pp : PPc T := .idle
  cp : CPc T := .idle
  /-- ghost: values whose `push` has published its node, oldest first -/
  pushed : List T := []
  /-- ghost: values returned by `pop`, oldest first -/
  popped : List (Option T) := []
  /-- ghost: return values of `size()` with the number of elements stored at the load -/
  sizes : List (Nat × Nat) := []

/-- Result of one attempted step. `no`: this thread cannot take this step now. -/
inductive R (T : Type) where
  | ok (s : State T)
  | fault
  | no

variable {T : Type}

/-- heap update -/
def upd (h : Addr → Option (Node T)) (a : Addr) (n : Option (Node T)) : Addr → Option (Node T) :=
  fun b => if b = a then n else h b

/-- Constructor, lines 31-34, with the dummy node at address `a`. -/
def init (a : Addr) : State T :=
  { heap := upd (fun _ => none) a (some ⟨none, none⟩), first := a, dummy := a, last := a }

/-- What the environment decides for the producer's next step. -/
inductive PChoice (T : Type) where
  | push (x : T)
  | size
  | addr (a : Addr)
  | go

/-- Producer steps. -/
def pstep (s : State T) (c : PChoice T) : R T :=
  match s.pp, c with
  | .idle, .push x => .ok { s with pp := .alloc x }
  | .idle, .size => .ok { s with pp := .size s.dummy s.last 0 (s.pushed.length - s.popped.length) }
  | .alloc x, .addr a =>
    match s.heap a with
    | some _ => .no
    | none => .ok { s with heap := upd s.heap a (some ⟨some x, none⟩), pp := .link x a }
  | .link x a, .go =>
    match s.heap s.last with
    | none => .fault
    | some n => .ok { s with heap := upd s.heap s.last (some { n with next := some a }),
                             pp := .readLast x }
  | .readLast x, .go =>
    match s.heap s.last with
    | none => .fault
    | some n =>
      match n.next with
      | none => .fault
      | some a => .ok { s with pp := .publish x a }
  | .publish x a, .go => .ok { s with last := a, pushed := s.pushed ++ [x], pp := .loop }
  | .loop, .go => .ok { s with pp := if s.first = s.dummy then .idle else .unlink }
  | .unlink, .go =>
    match s.heap s.first with
    | none => .fault
    | some n =>
      match n.next with
      | none => .fault
      | some a => .ok { s with first := a, pp := .free s.first }
  | .free temp, .go =>
    match s.heap temp with
    | none => .fault
    | some _ => .ok { s with heap := upd s.heap temp none, pp := .loop }
  | .size tmp stop n snap, .go =>
    if tmp = stop then .ok { s with pp := .idle, sizes := s.sizes ++ [(n, snap)] }
    else
      match s.heap tmp with
      | none => .fault
      | some nd =>
        match nd.next with
        | none => .fault
        | some a => .ok { s with pp := .size a stop (n + 1) snap }
  | _, _ => .no

inductive CChoice where
  | pop
  | size
  | go

/-- Consumer steps. -/
def cstep (s : State T) (c : CChoice) : R T :=
  match s.cp, c with
  | .idle, .pop => .ok { s with cp := .test }
  | .idle, .size => .ok { s with cp := .size s.dummy s.last 0 (s.pushed.length - s.popped.length) }
  | .test, .go => .ok { s with cp := if s.dummy = s.last then .idle else .readNext }
  | .readNext, .go =>
    match s.heap s.dummy with
    | none => .fault
    | some n =>
      match n.next with
      | none => .fault
      | some a => .ok { s with cp := .moveOut a }
  | .moveOut a, .go =>
    match s.heap a with
    | none => .fault
    | some n => .ok { s with heap := upd s.heap a (some { n with data := none }),
                             cp := .readNext2 n.data }
  | .readNext2 t, .go =>
    match s.heap s.dummy with
    | none => .fault
    | some n =>
      match n.next with
      | none => .fault
      | some a => .ok { s with cp := .advance t a }
  | .advance t a, .go => .ok { s with dummy := a, popped := s.popped ++ [t], cp := .idle }
  | .size tmp stop n snap, .go =>
    if tmp = stop then .ok { s with cp := .idle, sizes := s.sizes ++ [(n, snap)] }
    else
      match s.heap tmp with
      | none => .fault
      | some nd =>
        match nd.next with
        | none => .fault
        | some a => .ok { s with cp := .size a stop (n + 1) snap }
  | _, _ => .no

/-- `while (first_ != stop) { temp = first_; first_ = temp->next; delete temp; }`
(lines 109-113, with `stop = dummy_`): from heap `h` and `first_ = a` the loop ends with heap `h'`. -/
inductive FreeUntil (stop : Addr) : (Addr → Option (Node T)) → Addr → (Addr → Option (Node T)) → Prop
  | done (h) : FreeUntil stop h stop h
  | step (h h' a n b) : a ≠ stop → h a = some n → n.next = some b →
      FreeUntil stop (upd h a none) b h' → FreeUntil stop h a h'

/-- `while (first_->next != nullptr) { temp = first_; first_ = temp->next; delete temp; }`
(lines 117-121): ends with heap `h'` and `first_ = z`. -/
inductive FreeToLast : (Addr → Option (Node T)) → Addr → (Addr → Option (Node T)) → Addr → Prop
  | done (h a n) : h a = some n → n.next = none → FreeToLast h a h a
  | step (h h' a n b z) : h a = some n → n.next = some b →
      FreeToLast (upd h a none) b h' z → FreeToLast h a h' z

/-- `clear()`, lines 108-124; not to be used concurrently, so it is one step taken while no other
call is in progress. The ghost histories restart. -/
inductive Clear : State T → State T → Prop
  | mk (s : State T) (h1 h2 : Addr → Option (Node T)) (z : Addr) :
      s.pp = .idle → s.cp = .idle → FreeUntil s.dummy s.heap s.first h1 →
      FreeToLast h1 s.dummy h2 z →
      Clear s { heap := h2, first := z, dummy := z, last := z, pushed := [], popped := [],
                sizes := s.sizes }

/-- Destructor, lines 36-43: `while (first_ != nullptr) {...}` started with pointer `p` leaves
heap `h'`. -/
inductive Destroy : (Addr → Option (Node T)) → Option Addr → (Addr → Option (Node T)) → Prop
  | done (h) : Destroy h none h
  | step (h h' a n) : h a = some n → Destroy (upd h a none) n.next h' → Destroy h (some a) h'

/-- States reachable from construction under any interleaving of any calls. -/
inductive Reach (T : Type) : State T → Prop
  | init (a : Addr) : Reach T (init a)
  | prod {s t} (c : PChoice T) : Reach T s → pstep s c = .ok t → Reach T t
  | cons {s t} (c : CChoice) : Reach T s → cstep s c = .ok t → Reach T t
  | clear {s t} : Reach T s → Clear s t → Reach T t

/-- Plain (non-atomic) memory locations. -/
inductive Loc where
  | next (a : Addr)
  | data (a : Addr)
deriving DecidableEq

/-- Plain accesses of the next producer step: locations read and locations written (a `delete`
writes both fields of the node). -/
def pReads (s : State T) : List Loc :=
  match s.pp with
  | .readLast _ => [.next s.last]
  | .unlink => [.next s.first]
  | .size tmp stop _ _ => if tmp = stop then [] else [.next tmp]
  | _ => []

def pWrites (s : State T) : List Loc :=
  match s.pp with
  | .link _ _ => [.next s.last]
  | .free t => [.next t, .data t]
  | _ => []

def cReads (s : State T) : List Loc :=
  match s.cp with
  | .readNext => [.next s.dummy]
  | .readNext2 _ => [.next s.dummy]
  | .moveOut a => [.data a]
  | .size tmp stop _ _ => if tmp = stop then [] else [.next tmp]
  | _ => []

def cWrites (s : State T) : List Loc :=
  match s.cp with
  | .moveOut a => [.data a]
  | _ => []

end Verif.Thread.Queue
