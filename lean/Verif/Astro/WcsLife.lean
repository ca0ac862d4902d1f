import Verif.Basic
/-!
# Life of a `wcs` (`astro/wcs.hpp:351-393`, `542-629`)

A program is a list of operations on variables of type `wcs`, numbered by integers. The structures of `wcslib` are in a heap; their parameters are represented by a
version number, which is increased each time the user changes them, and by the version of the last call to `wcsset`, which is the one used by the conversions.
An operation on a variable that does not exist, or the creation of one that exists, does nothing. The arrays by axis are moved with the pointer and are not
modelled here.
-/
namespace Verif.WcsLife
open Verif

/-- `wcsprm` -/
structure Cell where
  live : Bool
  viaNew : Bool
  cur : Nat
  set : Option Nat

/-- `wcs` (wcs.hpp:351-354) -/
structure Obj where
  w : Option Nat
  isset : Bool

structure State where
  objs : Nat → Option Obj
  heap : Nat → Option Cell
  next : Nat

def State.empty : State := ⟨fun _ => none, fun _ => none, 0⟩

/-- assignment of one element of a function -/
def upd {α : Type} (f : Nat → α) (i : Nat) (a : α) : Nat → α := fun j => if j = i then a else f j

/-- `wcsvfree` (of wcslib): the structure must have been allocated by `malloc` and not freed yet; the pointer is reset by the caller -/
def free (heap : Nat → Option Cell) : Option Nat → Res (Nat → Option Cell)
  | none => .ok heap
  | some a => match heap a with
    | some c => if c.live ∧ ¬ c.viaNew then .ok (upd heap a (some { c with live := false })) else .ub
    | none => .ub

inductive Op
  /-- `wcs(naxis)` (wcs.hpp:363-370) -/
  | plain (i : Nat)
  /-- `wcs(hdr)` for a header that is read (wcs.hpp:372-390) -/
  | header (i : Nat)
  /-- `wcs(hdr)` for a header that is not read (wcs.hpp:392-398); `isset` is true if the failure is that of `wcsset` -/
  | fail (i : Nat) (isset : Bool)
  /-- `wcs i(std::move(j))` (wcs.hpp:545-555) -/
  | moveNew (i j : Nat)
  /-- `i = std::move(j)` (wcs.hpp:557-573) -/
  | move (i j : Nat)
  /-- `~wcs()` (wcs.hpp:623-628) -/
  | destroy (i : Nat)
  /-- a change of the parameters followed by `flag_dirty()` (wcs.hpp:588-590) -/
  | change (i : Nat)
  /-- `update()` (wcs.hpp:579-586) -/
  | update (i : Nat)

/-- one operation -/
def step (s : State) : Op → Res State
  | .plain i => match s.objs i with
    | some _ => .ok s
    | none => .ok ⟨upd s.objs i (some ⟨some s.next, false⟩), upd s.heap s.next (some ⟨true, true, 0, none⟩), s.next + 1⟩
  | .header i => match s.objs i with
    | some _ => .ok s
    | none => .ok ⟨upd s.objs i (some ⟨some s.next, true⟩), upd s.heap s.next (some ⟨true, false, 0, some 0⟩), s.next + 1⟩
  | .fail i b => match s.objs i with
    | some _ => .ok s
    | none => .ok { s with objs := upd s.objs i (some ⟨none, b⟩) }
  | .moveNew i j => match s.objs i, s.objs j with
    | none, some o => .ok { s with objs := upd (upd s.objs j (some ⟨none, o.isset⟩)) i (some ⟨o.w, false⟩) }
    | _, _ => .ok s
  | .move i j => match s.objs i, s.objs j with
    | some t, some _ => do
      let heap ← free s.heap t.w
      let objs := upd s.objs i (some ⟨none, t.isset⟩)
      match objs j with
      | some o => .ok ⟨upd (upd objs i (some ⟨o.w, t.isset⟩)) j (some ⟨none, o.isset⟩), heap, s.next⟩
      | none => .ub
    | _, _ => .ok s
  | .destroy i => match s.objs i with
    | none => .ok s
    | some o => do
      let heap ← free s.heap o.w
      .ok { s with objs := upd s.objs i none, heap := heap }
  | .change i => match s.objs i with
    | some ⟨some a, _⟩ => match s.heap a with
      | some c => if c.live then .ok { s with objs := upd s.objs i (some ⟨some a, false⟩), heap := upd s.heap a (some { c with cur := c.cur + 1 }) } else .ub
      | none => .ub
    | _ => .ok s
  | .update i => match s.objs i with
    | none => .ok s
    | some o => if o.isset then .ok s else match o.w with
      | none => .abort
      | some a => match s.heap a with
        | some c => if c.live then .ok { s with objs := upd s.objs i (some ⟨some a, true⟩), heap := upd s.heap a (some { c with set := some c.cur }) } else .ub
        | none => .ub

/-- a program -/
def run (s : State) : List Op → Res State
  | [] => .ok s
  | o :: os => do
    let s ← step s o
    run s os

/-- the version of the parameters used by a conversion: that of the last `wcsset`, or the current one if there was none (it is then called by `wcslib`) -/
def used (s : State) (i : Nat) : Option Nat := match s.objs i with
  | some ⟨some a, _⟩ => (s.heap a).map fun c => c.set.getD c.cur
  | _ => none

/-- the current version -/
def current (s : State) (i : Nat) : Option Nat := match s.objs i with
  | some ⟨some a, _⟩ => (s.heap a).map fun c => c.cur
  | _ => none

end Verif.WcsLife
