import Verif.Core.Vec
import Verif.Find.FP
import Mathlib.Algebra.Order.Field.Basic
import Mathlib.Algebra.Order.Floor.Ring
import Mathlib.Algebra.BigOperators.Group.List.Lemmas
/-!
# Model of `math/histogram.hpp` and of the grid generators of `math/base.hpp`

Values are `Option α` with `none` for NaN in the functions that compare; the generators work on the
elements of an ordered field (no rounding).  `std::partition` is a parameter `part` of which only
the contract of the C++ standard is assumed (`PartOk`): the order inside the two parts is free.
-/
namespace Verif.Math
open Verif Verif.Core

section
variable {α : Type} [LinearOrder α]

/-- type of `std::partition`: predicate, range, resulting two parts -/
abbrev Part (β : Type) := (β → Bool) → List β → List β × List β

/-- what the standard says of `std::partition(first, end, p)`: the two parts are the elements that
satisfy `p` and those that do not, in some order. -/
structure PartOk {β : Type} (part : Part β) : Prop where
  yes : ∀ p l, ((part p l).1).Perm (l.filter p)
  no : ∀ p l, ((part p l).2).Perm (l.filter (fun x => !p x))

/-- C++ `a >= b` on floating point: false when either is NaN -/
def fge (a b : Option α) : Bool := match a, b with
  | some a, some b => decide (b ≤ a)
  | _, _ => false

/-- one bin: lower and upper edge -/
abbrev Bin (α : Type) := Option α × Option α

/-- `t >= low && t < up`, `histogram.hpp:69` and the lambdas of `histogram` -/
def inRangeOf (b : Bin α) (t : Option α) : Bool := fge t b.1 && FP.lt t b.2

/-- the columns of a bin vector `vec<2,B>` of dimensions `[2,n]`: `(b(0,i), b(1,i))`;
`histogram.hpp:192` and the others check `dims[0] == 2` -/
def binList (b : Vec (Option α)) : Res (List (Bin α)) := do
  Res.check (b.dims.getD 0 0 = 2)
  (List.range (b.dims.getD 1 0)).mapM fun i => do
    let lo ← Res.rd b.data i
    let hi ← Res.rd b.data (b.dims.getD 1 0 + i)
    pure (lo, hi)

/-- `in_bin(t, vec<1>)`, `histogram.hpp:64-70` -/
def inBin1 (t : Option α) (b : List (Option α)) : Res Bool := do
  Res.check (b.length = 2)
  let lo ← Res.rd b 0
  let hi ← Res.rd b 1
  pure (inRangeOf (lo, hi) t)

/-- `in_bin(t, vec<2>, ib)`, `histogram.hpp:87-95` -/
def inBin (t : Option α) (b : Vec (Option α)) (ib : Nat) : Res Bool := do
  Res.check (b.dims.getD 0 0 = 2)
  Res.check (ib < b.dims.getD 1 0)
  let lo ← Res.rd b.data ib
  let hi ← Res.rd b.data (b.dims.getD 1 0 + ib)
  pure (inRangeOf (lo, hi) t)

/-- `in_bin(vec, vec<2>, ib)`, `histogram.hpp:97-112` -/
def inBinV (v : Vec (Option α)) (b : Vec (Option α)) (ib : Nat) : Res (Vec Bool) := do
  Res.check (b.dims.getD 0 0 = 2)
  Res.check (ib < b.dims.getD 1 0)
  let lo ← Res.rd b.data ib
  let hi ← Res.rd b.data (b.dims.getD 1 0 + ib)
  pure ⟨v.data.map (inRangeOf (lo, hi)), v.dims⟩

/-- `in_bin_open(t, vec<2>, ib)`, `histogram.hpp:114-128` -/
def inBinOpen (t : Option α) (b : Vec (Option α)) (ib : Nat) : Res Bool := do
  Res.check (b.dims.getD 0 0 = 2)
  Res.check (ib < b.dims.getD 1 0)
  let lo ← Res.rd b.data ib
  let hi ← Res.rd b.data (b.dims.getD 1 0 + ib)
  pure (if ib = 0 then FP.lt t hi
    else if ib = b.dims.getD 1 0 - 1 then fge t lo
    else fge t lo && FP.lt t hi)

/-- loop of `histogram(data, bins)`, `histogram.hpp:201-211`; `rest` is what `[first, end)` holds,
the remaining counts keep their initial value 0 after `break` -/
def histLoop (part : Part (Option α)) :
    List (Bin α) → List (Option α) → List Nat
  | [], _ => []
  | b :: bs, rest =>
    (part (inRangeOf b) rest).1.length ::
      if (part (inRangeOf b) rest).2 = [] then bs.map (fun _ => 0)
      else histLoop part bs (part (inRangeOf b) rest).2

/-- `histogram(data, bins)`, `histogram.hpp:190-213` -/
def histogram (part : Part (Option α)) (data : List (Option α)) (bins : Vec (Option α)) : Res (List Nat) := do
  let bs ← binList bins
  pure (histLoop part bs data)

/-- value of datum `id`, the lambdas of `histogram.hpp:231,257`; ids come from `indgen(size)` -/
def valueAt (data : List (Option α)) (id : Nat) : Option α := data.getD id none

variable {ω : Type} [AddCommMonoid ω]

/-- loop of the weighted `histogram`, `histogram.hpp:228-239` -/
def whistLoop (part : Part Nat) (data : List (Option α))
    (w : List ω) : List (Bin α) → List Nat → List ω
  | [], _ => []
  | b :: bs, rest =>
    (part (fun id => inRangeOf b (valueAt data id)) rest).1.foldl (fun c id => c + w.getD id 0) 0 ::
      if (part (fun id => inRangeOf b (valueAt data id)) rest).2 = [] then bs.map (fun _ => 0)
      else whistLoop part data w bs (part (fun id => inRangeOf b (valueAt data id)) rest).2

/-- weighted `histogram(data, weight, bins)`, `histogram.hpp:215-242` -/
def whistogram (part : Part Nat) (data : Vec (Option α)) (w : Vec ω) (bins : Vec (Option α)) : Res (List ω) := do
  let bs ← binList bins
  Res.check (data.dims = w.dims)
  pure (whistLoop part data.data w.data bs (List.range data.data.length))

/-- `histogram_impl`, `histogram.hpp:246-264`: the calls `func(i, ids)` made, in order.  `first` is
never advanced, so each bin looks at all the ids (in the order left by the previous partition). -/
def fhistLoop (part : Part Nat) (data : List (Option α)) :
    Nat → List (Bin α) → List Nat → List (Nat × List Nat)
  | _, [], _ => []
  | i, b :: bs, ids =>
    (i, (part (fun id => inRangeOf b (valueAt data id)) ids).1) ::
      if (part (fun id => inRangeOf b (valueAt data id)) ids).2 = [] then []
      else fhistLoop part data (i + 1) bs
        ((part (fun id => inRangeOf b (valueAt data id)) ids).1 ++
         (part (fun id => inRangeOf b (valueAt data id)) ids).2)

/-- `histogram(x, bins, func)`, `histogram.hpp:267-284` -/
def fhistogram (part : Part Nat) (data : List (Option α)) (bins : Vec (Option α)) :
    Res (List (Nat × List Nat)) := do
  let bs ← binList bins
  pure (fhistLoop part data 0 bs (List.range data.length))

/-- inner loop of `histogram2d_impl`, `histogram.hpp:311-321`: calls `(j, ids)`, and the order in
which the ids of this x bin are left -/
def hist2Inner (part : Part Nat) (y : List (Option α)) :
    Nat → List (Bin α) → List Nat → List (Nat × List Nat)
  | _, [], _ => []
  | j, b :: bs, rest =>
    (j, (part (fun id => inRangeOf b (valueAt y id)) rest).1) ::
      if (part (fun id => inRangeOf b (valueAt y id)) rest).2 = [] then []
      else hist2Inner part y (j + 1) bs (part (fun id => inRangeOf b (valueAt y id)) rest).2

/-- outer loop of `histogram2d_impl`, `histogram.hpp:304-326`: calls `(i, j, ids)` -/
def hist2Outer (part : Part Nat) (x y : List (Option α))
    (ybins : List (Bin α)) : Nat → List (Bin α) → List Nat → List (Nat × Nat × List Nat)
  | _, [], _ => []
  | i, b :: bs, rest =>
    (hist2Inner part y 0 ybins (part (fun id => inRangeOf b (valueAt x id)) rest).1).map
        (fun c => (i, c.1, c.2)) ++
      if (part (fun id => inRangeOf b (valueAt x id)) rest).2 = [] then []
      else hist2Outer part x y ybins (i + 1) bs (part (fun id => inRangeOf b (valueAt x id)) rest).2

/-- `histogram2d(x, y, xbins, ybins, func)`, `histogram.hpp:287-328,347-365`: calls made -/
def fhistogram2d (part : Part Nat) (x y : Vec (Option α)) (xbins ybins : Vec (Option α)) :
    Res (List (Nat × Nat × List Nat)) := do
  let xb ← binList xbins
  let yb ← binList ybins
  Res.check (x.dims = y.dims)
  pure (hist2Outer part x.data y.data yb 0 xb (List.range x.data.length))

/-- `counts(i,j) = i1 - i0` for each call, `histogram.hpp:338-342` -/
def applyCounts (ny : Nat) : List (Nat × Nat × List Nat) → List Nat → List Nat
  | [], c => c
  | (i, j, ids) :: cs, c => applyCounts ny cs (c.set (i * ny + j) ids.length)

/-- `histogram2d(x, y, xbins, ybins)`, `histogram.hpp:330-345` -/
def histogram2d (part : Part Nat) (x y : Vec (Option α)) (xbins ybins : Vec (Option α)) : Res (Vec Nat) := do
  let calls ← fhistogram2d part x y xbins ybins
  let nx := xbins.dims.getD 1 0
  let ny := ybins.dims.getD 1 0
  pure ⟨applyCounts ny calls (List.replicate (nx * ny) 0), [nx, ny]⟩

end

section
variable {K : Type} [Field K] [LinearOrder K] [IsStrictOrderedRing K]

/-- `make_bins(mi, ma, n)`, `histogram.hpp:16-26` (exact arithmetic) -/
def makeBins (mi ma : K) (n : Nat) : Vec K :=
  let d := (ma - mi) / n
  ⟨(List.range n).map (fun i : Nat => mi + i * d) ++ (List.range n).map (fun i : Nat => mi + (i + 1) * d), [2, n]⟩

/-- `make_bins_from_edges(v)`, `histogram.hpp:28-39` -/
def makeBinsFromEdges {α : Type} (v : List α) : Res (Vec α) := do
  Res.check (1 < v.length)
  pure ⟨v.take (v.length - 1) ++ v.drop 1, [2, v.length - 1]⟩

/-- upper edge of bin `i` of `make_bins_from_centers`, `histogram.hpp:54-58` -/
def centerUp (v : List K) (i : Nat) : K :=
  if i = v.length - 1 then v.getD (v.length - 1) 0 + (v.getD (v.length - 1) 0 - v.getD (v.length - 2) 0) / 2
  else (v.getD i 0 + v.getD (i + 1) 0) / 2

/-- lower edge of bin `i`, `histogram.hpp:48-52` -/
def centerLow (v : List K) (i : Nat) : K :=
  if i = 0 then v.getD 0 0 - (v.getD 1 0 - v.getD 0 0) / 2 else centerUp v (i - 1)

/-- `make_bins_from_centers(v)`, `histogram.hpp:41-62` -/
def makeBinsFromCenters (v : List K) : Res (Vec K) := do
  Res.check (1 < v.length)
  pure ⟨(List.range v.length).map (centerLow v) ++ (List.range v.length).map (centerUp v), [2, v.length]⟩

/-- `bin_center(b)`, `histogram.hpp:157-163` -/
def binCenter (b : Vec K) : Res (List K) := do
  Res.check (b.dims.getD 0 0 = 2)
  (List.range (b.dims.getD 1 0)).mapM fun i => do
    let lo ← Res.rd b.data i
    let hi ← Res.rd b.data (b.dims.getD 1 0 + i)
    pure ((hi + lo) / 2)

/-- `rgen(i, j, n)`, `base.hpp:199-212` -/
def rgen (i j : K) (n : Nat) : List K :=
  if n = 1 then [i]
  else (List.range n).map (fun k : Nat => i + k * ((j - i) / ((n : K) - 1)))

/-- `round((j-i)/s)` to nearest integer, halves away from zero (argument non-negative):
`base.hpp:249,251` -/
def roundNat [FloorRing K] (t : K) : Nat := (Int.floor (t + 1 / 2)).toNat

/-- `rgen_step(i, j, s)`, `base.hpp:236-263` -/
def rgenStep [FloorRing K] (i j s : K) : Res (List K) := do
  Res.check (0 < s)
  let (n, step) := if i < j then (roundNat ((j - i) / s) + 1, s) else (roundNat ((i - j) / s) + 1, -s)
  let ret := (List.range n).map (fun k : Nat => (k : K) * step + i)
  if 1 < n then pure (ret.set (n - 1) j)
  else if i - j ≠ 0 then pure (ret ++ [j])
  else pure ret

end
end Verif.Math
