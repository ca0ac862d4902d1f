import Verif.Basic
import Mathlib.Tactic.Ring
/-!
# `range(...)` loops

Models `core/range.hpp:41-89,179-201`: the object iterated by `for (x : range(b,e))`.
Integers are unbounded here (the code stores `dtype<T>`, a signed 64-bit step).
-/
namespace Verif.Core

/-- `range_t(b,e,n)`: values `b + d*i` for `i < n`, with `d = (e-b)/n` (C++ division truncates
toward zero), `d = 0` if `n = 0` (`range.hpp:41-44,63-65,82-88`). -/
def rangeT (b e : Int) (n : Nat) : List Int :=
  let d : Int := if n = 0 then 0 else (e - b).tdiv n
  (List.range n).map fun (i : Nat) => b + d * (i : Int)

/-- `range(i,e)`, `range.hpp:185-189`: `n = |e - i|`. -/
def range2 (i e : Int) : List Int := rangeT i e (e - i).natAbs

/-- `range(n)`, `range.hpp:191-195`. -/
def range1 (n : Nat) : List Int := range2 0 n

/-- Ascending ranges count up by one. -/
theorem range2_asc (i e : Int) (h : i ≤ e) :
    range2 i e = (List.range (e - i).toNat).map fun (k : Nat) => i + (k : Int) := by
  unfold range2 rangeT
  have hn : (e - i).natAbs = (e - i).toNat := by omega
  rw [hn]
  by_cases h0 : (e - i).toNat = 0
  · simp [h0]
  · simp only [h0, if_false]
    have : (e - i).tdiv ((e - i).toNat : Int) = 1 := by
      rw [Int.toNat_of_nonneg (by omega)]; exact Int.tdiv_self (by omega)
    rw [this]; simp

/-- Descending ranges count down by one: `range(i,e)` with `e < i` is `i, i-1, ..., e+1`. -/
theorem range2_desc (i e : Int) (h : e < i) :
    range2 i e = (List.range (i - e).toNat).map fun (k : Nat) => i - (k : Int) := by
  unfold range2 rangeT
  have hn : (e - i).natAbs = (i - e).toNat := by omega
  rw [hn]
  have h0 : (i - e).toNat ≠ 0 := by omega
  simp only [h0, if_false]
  have : (e - i).tdiv ((i - e).toNat : Int) = -1 := by
    rw [Int.toNat_of_nonneg (by omega)]
    have e1 : e - i = -(i - e) := by omega
    rw [e1, Int.neg_tdiv, Int.tdiv_self (by omega)]
  rw [this]
  apply List.map_congr_left
  intro k _; omega

theorem mem_range2_asc {i e : Int} (h : i ≤ e) (x : Int) : x ∈ range2 i e ↔ i ≤ x ∧ x < e := by
  rw [range2_asc i e h]
  simp only [List.mem_map, List.mem_range]
  constructor
  · rintro ⟨k, hk, rfl⟩; omega
  · rintro ⟨h1, h2⟩; exact ⟨(x - i).toNat, by omega, by omega⟩

end Verif.Core
