import Verif.Basic
import Mathlib.Algebra.Order.Field.Basic
import Mathlib.Algebra.Order.Floor.Ring
import Mathlib.Order.WithBot
/-!
# Cross-matching of catalogues (`astro/qxmatch.hpp`)

`res.id(_,i)` and `res.d(_,i)` are kept together as the column of the source `i`: a list of pairs (distance, id) in which `⊤` is `dinf`
and `none` is `npos`. `distance_proxy` is an arbitrary function `dist i j` of the two sources in the brute-force search; the bucket search
is modelled in linear coordinates only (`params.linear`), in exact arithmetic. The final conversion of the proxies to distances is
applied to every entry and is left out: entries hold proxies. In the threaded branches every thread writes to its own result object
(`vres[t]`) and reads shared data that nobody modifies, so that the interleaving does not matter.
-/
namespace Verif.Qx
open Verif

variable {K : Type} [LinearOrder K]

/-- one entry of `d` and of `id` -/
abbrev Entry (K : Type) := WithTop K × Option Nat

/-- `(dinf, npos)` -/
def noMatch : Entry K := (⊤, none)

/-- the loop `while (k != npos && d(k,i) > d(k+1,i))` (`qxmatch.hpp:326-330`, `505-509`); the first argument is `k+1` -/
def bubble : Nat → List (Entry K) → Res (List (Entry K))
  | 0, c => .ok c
  | k + 1, c => do
    let a ← Res.rd c k
    let b ← Res.rd c (k + 1)
    if b.1 < a.1 then bubble k ((c.set k b).set (k + 1) a) else .ok c

/-- the update of the list of neighbours (`qxmatch.hpp:322-332`, `500-511`) -/
def insertNth (nth : Nat) (c : List (Entry K)) (sd : K) (j : Nat) : Res (List (Entry K)) := do
  let l ← Res.rd c (nth - 1)
  if (sd : WithTop K) < l.1 then bubble (nth - 1) (c.set (nth - 1) (sd, some j)) else .ok c

/-- `qxmatch_res`: the columns of the first catalogue, and `(rd, rid)` of the second -/
structure XRes (K : Type) where
  fwd : List (List (Entry K))
  rev : List (Entry K)

/-- the result before the search (`qxmatch.hpp:159-165`); with `no_mirror` the reverse part is not used -/
def XRes.init (nth n1 n2 : Nat) : XRes K := ⟨List.replicate n1 (List.replicate nth noMatch), List.replicate n2 noMatch⟩

/-- `work(i, j, tres)` of the brute-force search (`qxmatch.hpp:493-517`) -/
def work (dist : Nat → Nat → K) (mirror : Bool) (nth i j : Nat) (r : XRes K) : Res (XRes K) := do
  let c ← Res.rd r.fwd i
  let c ← insertNth nth c (dist i j) j
  let r := { r with fwd := r.fwd.set i c }
  if mirror then do
    let e ← Res.rd r.rev j
    if (dist i j : WithTop K) < e.1 then .ok { r with rev := r.rev.set j (dist i j, some i) } else .ok r
  else .ok r

/-- the loops on `i` and `j` (`qxmatch.hpp:522-530`, `559-566`), for the sources `is` of the first catalogue -/
def rows (dist : Nat → Nat → K) (mirror self : Bool) (nth n2 : Nat) (is : List Nat) (r : XRes K) : Res (XRes K) :=
  is.foldlM (fun r i => (List.range n2).foldlM (fun r j =>
    if self && i == j then .ok r else work dist mirror nth i j r) r) r

/-- brute force in one thread (`qxmatch.hpp:519-530`) -/
def brute (dist : Nat → Nat → K) (mirror self : Bool) (nth n1 n2 : Nat) : Res (XRes K) :=
  rows dist mirror self nth n2 (List.range n1) (XRes.init nth n1 n2)

/-- the sources given to the thread `t` among `nt` (`qxmatch.hpp:549-557`); `assigned` is `floor(n1/float(nt))` -/
def chunk (n1 nt assigned t : Nat) : List Nat :=
  List.range' (t * assigned) (if t = nt - 1 then n1 - t * assigned else assigned)

/-- the merge of the reverse matches (`qxmatch.hpp:599-604`) -/
def mergeRev (r v : List (Entry K)) : List (Entry K) :=
  (r.zip v).map fun (a, b) => if b.1 ≤ a.1 then b else a

/-- the checks on `beg-_-(end-1)`, with `len` elements, in a dimension of size `n` (`range.hpp:154-157`, `access.hpp:279-282`): `end-1` wraps if `end` is 0 -/
def checkRange (n beg len : Nat) : Res Unit :=
  if (beg + len + 2 ^ 64 - 1) % 2 ^ 64 < n ∧ beg < n then .ok () else .abort

/-- the merge of the result of one thread (`qxmatch.hpp:588-606`), whose sources `ids` begin at `beg` -/
def mergeOne (mirror : Bool) (t beg : Nat) (ids : List Nat) (r v : XRes K) : Res (XRes K) := do
  checkRange r.fwd.length beg ids.length
  let fwd ← ids.foldlM (fun (f : List (List (Entry K))) i => do
    let c ← Res.rd v.fwd i
    if i < f.length then .ok (f.set i c) else .ub) r.fwd
  .ok ⟨fwd, if mirror then (if t = 0 then v.rev else mergeRev r.rev v.rev) else r.rev⟩

/-- brute force in `nt` threads (`qxmatch.hpp:531-608`) -/
def bruteThreads (dist : Nat → Nat → K) (mirror self : Bool) (nth n1 n2 nt assigned : Nat) : Res (XRes K) :=
  (List.range nt).foldlM (fun r t => do
    let v ← rows dist mirror self nth n2 (chunk n1 nt assigned t) (XRes.init nth n1 n2)
    mergeOne mirror t (t * assigned) (chunk n1 nt assigned t) r v) (XRes.init nth n1 n2)

/-! ### `xmatch_clean_best` -/

/-- `id_pair` -/
structure IdPair where
  id1 : List Nat
  id2 : List Nat
  lost : List Nat
deriving DecidableEq, Repr

/-- `r.rid[r.id[i]]` with both indices checked (`qxmatch.hpp:651`); `id` is the first row of `r.id` -/
def reverseOf (rid : List (Option Nat)) (id : Option Nat) : Res (Option Nat) :=
  match id with
  | none => .abort
  | some j => if j < rid.length then Res.rd rid j else .abort

/-- the loop of `xmatch_clean_best` (`qxmatch.hpp:650-657`) -/
def cleanLoop (rid : List (Option Nat)) : Nat → List (Option Nat) → IdPair → Res IdPair
  | _, [], c => .ok c
  | i, id :: ids, c => do
    let b ← reverseOf rid id
    match id with
    | some j =>
      if b = some i then cleanLoop rid (i + 1) ids ⟨c.id1 ++ [i], c.id2 ++ [j], c.lost⟩
      else cleanLoop rid (i + 1) ids { c with lost := c.lost ++ [i] }
    | none => .abort

/-- `xmatch_clean_best` (`qxmatch.hpp:641-663`) -/
def cleanBest (id rid : List (Option Nat)) : Res IdPair := cleanLoop rid 0 id ⟨[], [], []⟩

/-! ### Bucket search in linear coordinates -/

section bucket
variable [Field K] [FloorRing K]

/-- `min` and `max` of a vector that is not empty -/
def lmin : List K → K
  | [] => 0
  | a :: l => l.foldl min a
def lmax : List K → K
  | [] => 0
  | a :: l => l.foldl max a

/-- what the bucket search works on: the number of buckets, the bucket of every source, the size of a bucket, the lists of sources -/
structure Field2 (K : Type) where
  nra : Nat
  ndec : Nat
  cs : K
  x0 : K
  y0 : K
  c1 : List (K × K)
  c2 : List (K × K)

/-- the choice of the buckets (`qxmatch.hpp:232-276`) with `params.linear`; `sq` is the square root. A bucket size of zero is undefined
behaviour: the number of buckets is the conversion of an infinity or NaN to an integer. -/
def makeField (sq : K → K) (c1 c2 : List (K × K)) : Res (Field2 K) :=
  let ra1 := c1.map Prod.fst; let dec1 := c1.map Prod.snd
  let ra2 := c2.map Prod.fst; let dec2 := c2.map Prod.snd
  let cs := sq ((lmax ra2 - lmin ra2) * (lmax dec2 - lmin dec2))
  let rra0 := min (lmin ra1) (lmin ra2) - cs
  let rra1 := max (lmax ra1) (lmax ra2) + cs
  let rdec0 := min (lmin dec1) (lmin dec2) - cs
  let rdec1 := max (lmax dec1) (lmax dec2) + cs
  if cs = 0 then .ub
  else .ok ⟨⌊(rra1 - rra0) / cs⌋.toNat, ⌊(rdec1 - rdec0) / cs⌋.toNat, cs, rra0, rdec0, c1, c2⟩

/-- the bucket of a source (`qxmatch.hpp:288-299`) -/
def Field2.cell (f : Field2 K) (p : K × K) : Nat × Nat := (⌊(p.1 - f.x0) / f.cs⌋.toNat, ⌊(p.2 - f.y0) / f.cs⌋.toNat)

/-- filling the buckets: the indices are checked (`qxmatch.hpp:290-300`) -/
def Field2.checkCells (f : Field2 K) : Res Unit :=
  Res.check (∀ p ∈ f.c1 ++ f.c2, (f.cell p).1 < f.nra ∧ (f.cell p).2 < f.ndec)

/-- the content of a bucket (`ids1` or `ids2`): the sources of the catalogue in increasing order -/
def Field2.bucket (f : Field2 K) (c : List (K × K)) (x y : Nat) : List Nat :=
  (List.range c.length).filter fun j => match c[j]? with
    | some p => f.cell p == (x, y)
    | none => false

/-- `distance_proxy` in linear coordinates (`qxmatch.hpp:195-197`) -/
def sqDist (p q : K × K) : K := (q.1 - p.1) * (q.1 - p.1) + (q.2 - p.2) * (q.2 - p.2)

/-- the smallest of the four squares of `depth_cache::grow` (`qxmatch.hpp:104-107`) -/
def corner2 (x y : Nat) : K :=
  let s (a : K) : K := a * a
  min (min (s (x - 1/2) + s (y - 1/2)) (s (x + 1/2) + s (y - 1/2))) (min (s (x + 1/2) + s (y + 1/2)) (s (x - 1/2) + s (y + 1/2)))

/-- `depths[n].max_dist` (`qxmatch.hpp:64`, `97`) -/
def maxDist (cs : K) : Nat → K
  | 0 => cs / 2
  | n + 1 => cs * (((n + 2 : Nat) : K) + 1/2)

/-- the buckets of one quadrant that `grow` adds (`qxmatch.hpp:102-114`) when `depths.size()` becomes `d`; every pair `(x,y)` is looked at
once -/
def newCells (nx ny : Nat) (cs : K) (d : Nat) (vis : List (Nat × Nat)) : List (Nat × Nat) :=
  (List.range (min (d + 1) nx)).flatMap fun x => ((List.range (min (d + 1) ny)).filter fun y =>
    decide (cs * cs * corner2 x y ≤ maxDist cs (d - 1) * maxDist cs (d - 1)) && decide ((x, y) ∉ vis)).map fun y => (x, y)

/-- the four quadrants (`qxmatch.hpp:116-125`) -/
def quadrants (l : List (Nat × Nat)) : List (Int × Int) :=
  l.map (fun p => ((p.1 : Int), (p.2 : Int))) ++ l.map (fun p => (-(p.1 : Int), (p.2 : Int))) ++
  l.map (fun p => (-(p.1 : Int), -(p.2 : Int))) ++ l.map fun p => ((p.1 : Int), -(p.2 : Int))

/-- `visited` and the pairs `(bx, by)` of `depths[n]` (`qxmatch.hpp:55-127`) -/
def depth (nx ny : Nat) (cs : K) : Nat → List (Nat × Nat) × List (Int × Int)
  | 0 => ([(0, 0)], [(0, 0)])
  | n + 1 =>
    let v := (depth nx ny cs n).1
    let new := newCells nx ny cs (n + 2) v
    (v ++ new, quadrants new)

/-- the sources of a catalogue found in the buckets of `depths[n]` around the bucket `o` (`qxmatch.hpp:319-325`, `356-363`) -/
def Field2.found (f : Field2 K) (c : List (K × K)) (o : Nat × Nat) (n : Nat) : List Nat :=
  (depth f.nra f.ndec f.cs n).2.flatMap fun b =>
    let x : Int := o.1 + b.1
    let y : Int := o.2 + b.2
    if x < 0 ∨ (f.nra : Int) ≤ x ∨ y < 0 ∨ (f.ndec : Int) ≤ y then [] else f.bucket c x.toNat y.toNat

/-- the distance of a source to the centre of its bucket (`qxmatch.hpp:310-312`) -/
def Field2.cellDist (f : Field2 K) (sq : K → K) (p : K × K) : K :=
  sq (sqDist p (f.x0 + (((f.cell p).1 : K) + 1/2) * f.cs, f.y0 + (((f.cell p).2 : K) + 1/2) * f.cs))

/-- `reached_distance` (`qxmatch.hpp:336-337`) -/
def Field2.reached (f : Field2 K) (sq : K → K) (p : K × K) (n : Nat) : K :=
  let r := max 0 (maxDist f.cs n - 11/10 * f.cellDist sq p - 1/10 * f.cs)
  r * r

/-- one source of a bucket in `work1` (`qxmatch.hpp:322-333`) -/
def step1 (self : Bool) (nth i : Nat) (p : K × K) (c2 : List (K × K)) (c : List (Entry K)) (j : Nat) : Res (List (Entry K)) :=
  if self && i == j then .ok c else match c2[j]? with
    | some q => insertNth nth c (sqDist p q) j
    | none => .ub

/-- one source of a bucket in `work2` (`qxmatch.hpp:359-367`) -/
def step2 (q : K × K) (c1 : List (K × K)) (e : Entry K) (i : Nat) : Res (Entry K) :=
  match c1[i]? with
  | some p => if ((sqDist p q : K) : WithTop K) < e.1 then .ok (((sqDist p q : K) : WithTop K), some i) else .ok e
  | none => .ub

/-- the `do ... while` loop of `work1` (`qxmatch.hpp:317-341`) for the source `i` at `p`; the first argument is the number of depths left -/
def search1 (sq : K → K) (f : Field2 K) (self : Bool) (nth i : Nat) (p : K × K) : Nat → Nat → List (Entry K) → Res (List (Entry K))
  | 0, _, _ => .diverge
  | left + 1, n, c => do
    let c ← (f.found f.c2 (f.cell p) n).foldlM (step1 self nth i p f.c2) c
    let l ← Res.rd c (nth - 1)
    if ((f.reached sq p n : K) : WithTop K) < l.1 ∧ n + 1 < max f.nra f.ndec then search1 sq f self nth i p left (n + 1) c else .ok c

/-- the loop of `work2` (`qxmatch.hpp:354-379`) for the source `q` of the second catalogue -/
def search2 (sq : K → K) (f : Field2 K) (q : K × K) : Nat → Nat → Entry K → Res (Entry K)
  | 0, _, _ => .diverge
  | left + 1, n, e => do
    let e ← (f.found f.c1 (f.cell q) n).foldlM (step2 q f.c1) e
    if ((f.reached sq q n : K) : WithTop K) < e.1 ∧ n + 1 < max f.nra f.ndec then search2 sq f q left (n + 1) e else .ok e

/-- `work1` on the source `i` (`qxmatch.hpp:303-343`) -/
def work1 (sq : K → K) (f : Field2 K) (self : Bool) (nth' nth : Nat) (c1 : List (K × K)) (i : Nat) : Res (List (Entry K)) :=
  match c1[i]? with
  | some p => search1 sq f self nth' i p (max f.nra f.ndec) 0 (List.replicate nth noMatch)
  | none => .ub

/-- `work2` on the source `j` (`qxmatch.hpp:345-381`), when there is a reverse search -/
def work2 (sq : K → K) (f : Field2 K) (search : Bool) (c2 : List (K × K)) (j : Nat) : Res (Entry K) :=
  match c2[j]? with
  | some q => if search then search2 sq f q (max f.nra f.ndec) 0 noMatch else .ok noMatch
  | none => .ub

/-- the bucket search in one thread (`qxmatch.hpp:229-400`) for two catalogues that are not empty. The second column of the result is only
filled when `self` is false. `nth` is lowered to the size of the second catalogue; the columns keep their size. -/
def bucketMatch (sq : K → K) (self mirror : Bool) (nth : Nat) (c1 c2 : List (K × K)) : Res (XRes K) := do
  let f ← makeField sq c1 c2
  f.checkCells
  let fwd ← (List.range c1.length).mapM (work1 sq f self (if c2.length < nth then c2.length else nth) nth c1)
  let rev ← (List.range c2.length).mapM (work2 sq f (!self && mirror) c2)
  .ok ⟨fwd, rev⟩

/-- the merge of a part of the result of a thread (`qxmatch.hpp:468-479`); `a` is what the thread found for its sources -/
def mergeRange {α : Type} (beg : Nat) (r a : List α) : Res (List α) := do
  checkRange r.length beg a.length
  .ok (r.take beg ++ a ++ r.drop (beg + a.length))

/-- the bucket search in `nt` threads (`qxmatch.hpp:401-480`): the sources of both catalogues are shared among the threads; `as1` and `as2` are `floor(n1/float(nt))` and `floor(n2/float(nt))`. What is
found for a source does not depend on the others, only the columns of the sources of the thread are kept. -/
def bucketThreads (sq : K → K) (self mirror : Bool) (nth nt as1 as2 : Nat) (c1 c2 : List (K × K)) : Res (XRes K) := do
  let f ← makeField sq c1 c2
  f.checkCells
  let parts ← (List.range nt).mapM fun t => do
    let a ← (chunk c1.length nt as1 t).mapM (work1 sq f self (if c2.length < nth then c2.length else nth) nth c1)
    let b ← (chunk c2.length nt as2 t).mapM (work2 sq f (!self && mirror) c2)
    .ok (a, b)
  ((List.range nt).zip parts).foldlM (fun r p => do
    let fwd ← mergeRange (p.1 * as1) r.fwd p.2.1
    let rev ← if mirror then mergeRange (p.1 * as2) r.rev p.2.2 else .ok r.rev
    .ok ⟨fwd, rev⟩) (XRes.init nth c1.length c2.length)

end bucket
end Verif.Qx
