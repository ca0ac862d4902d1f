import Verif.Basic
import Mathlib.Algebra.Order.Floor.Ring
import Mathlib.Algebra.Order.Field.Basic
/-!
# Random numbers (`math/random.hpp`)

The generator is a parameter: the functions take the successive values drawn from `std::uniform_real_distribution<double>(0,1)`, which by
contract are in `[0,1)`, or the successive indices drawn by `std::shuffle`. Doubles are exact.
-/
namespace Verif.Rand
open Verif

/-- the conversion of a floating point number to an integer: truncation toward zero -/
def trunc {K : Type} [LinearOrder K] [Field K] [FloorRing K] (x : K) : Int := if 0 ≤ x then ⌊x⌋ else ⌈x⌉

/-- one element of the vector form of `randomi` (`random.hpp:58-64`) for bounds of a signed integer type of `w` bits; `u` is the draw. The
sum `ma + 1` and the difference are computed in that type. -/
def randomi {K : Type} [LinearOrder K] [Field K] [FloorRing K] (w : Nat) (mi ma : Int) (u : K) : Res Int :=
  if 2 ^ (w - 1) ≤ ma + 1 ∨ 2 ^ (w - 1) ≤ ma + 1 - mi then .ub else .ok (trunc (u * ((ma + 1 - mi : Int) : K) + (mi : K)))

/-- the vector form: one draw for each element, in order -/
def randomiVec {K : Type} [LinearOrder K] [Field K] [FloorRing K] (w : Nat) (mi ma : Int) (us : List K) : Res (List Int) :=
  us.mapM (randomi w mi ma)

/-- `random_coin` (`random.hpp:106-110`) -/
def coin {K : Type} [LinearOrder K] (u prob : K) : Bool := decide (u ≤ prob)

/-- `random_coin` with one probability for each element (`random.hpp:112-123`) -/
def coins {K : Type} [LinearOrder K] (us probs : List K) : List Bool := List.zipWith coin us probs

/-- the exchange of two elements -/
def swapAt {α : Type} (l : List α) (i j : Nat) : List α :=
  match l[i]?, l[j]? with
  | some a, some b => (l.set i b).set j a
  | _, _ => l

/-- `std::shuffle` (`random.hpp:137-146`): for `i = 1, 2, ...` the element `i` is exchanged with one whose index is drawn in `[0,i]`.
`draw i` is the index drawn. -/
def shuffleFrom {α : Type} (draw : Nat → Nat) : Nat → Nat → List α → List α
  | 0, _, l => l
  | n + 1, i, l => shuffleFrom draw n (i + 1) (swapAt l i (draw i))

/-- `shuffle` of the data of a vector -/
def shuffle {α : Type} (draw : Nat → Nat) (l : List α) : List α := shuffleFrom draw (l.length - 1) 1 l

end Verif.Rand
