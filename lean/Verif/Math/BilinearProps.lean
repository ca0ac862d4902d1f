import Verif.Math.Bilinear
import Verif.Math.InterpProps
import Mathlib.Algebra.Order.Ring.Rat
import Mathlib.Data.Rat.Floor
import Mathlib.Tactic.LinearCombination
import Mathlib.Topology.Algebra.Order.Floor
import Mathlib.Topology.Algebra.Order.Group
import Mathlib.Topology.Algebra.Monoid
import Mathlib.Topology.Instances.Real.Lemmas
/-!
# Properties C95 (bilinear interpolation of an image)
-/
namespace Verif.Bil
open Verif Verif.Math

variable {K : Type} [Field K] [LinearOrder K] [FloorRing K]

/-- the pixel `(i,j)` -/
def Map.get (m : Map K) (i j : Nat) : K := m.data.getD (i * m.d1 + j) 0

/-- an image with at least two rows and two columns, of a size that can be addressed -/
structure Map.Good (m : Map K) : Prop where
  len : m.data.length = m.d0 * m.d1
  small : m.d0 * m.d1 < 2 ^ 63
  h0 : 2 ≤ m.d0
  h1 : 2 ≤ m.d1

/-- positions that can be converted to an integer -/
def InRange (x : K) : Prop := -(2 ^ 63 : Int) ≤ ⌊x⌋ ∧ ⌊x⌋ < (2 ^ 63 : Int)

/-- Spec: the cell `i` between two pixels of an axis with `d` pixels contains `x`; the first and the last cell extend outside of the image -/
def InCell (d : Nat) (x : K) (i : Nat) : Prop := i + 1 < d ∧ (i = 0 ∨ (i : K) ≤ x) ∧ (i + 2 = d ∨ x ≤ (i : K) + 1)

omit [LinearOrder K] [FloorRing K] in
theorem Map.Good.d0_lt {m : Map K} (h : m.Good) : m.d0 < 2 ^ 63 := by
  have := h.small
  have := Nat.le_mul_of_pos_right m.d0 (show 0 < m.d1 by have := h.h1; omega)
  omega

omit [LinearOrder K] [FloorRing K] in
theorem Map.Good.d1_lt {m : Map K} (h : m.Good) : m.d1 < 2 ^ 63 := by
  have := h.small
  have := Nat.le_mul_of_pos_left m.d1 (show 0 < m.d0 by have := h.h0; omega)
  omega

theorem idx_lt {d0 d1 i j : Nat} (hi : i < d0) (hj : j < d1) : i * d1 + j < d0 * d1 := by
  have := Nat.mul_le_mul_right d1 (show i + 1 ≤ d0 by omega)
  rw [Nat.succ_mul] at this
  omega

omit [LinearOrder K] [FloorRing K] in
theorem pix_get {m : Map K} (hl : m.data.length = m.d0 * m.d1) (hs : m.d0 * m.d1 < 2 ^ 63) {i j : Nat} (hi : i < m.d0) (hj : j < m.d1) :
    pix m i j = .ok (m.get i j) := by
  have hlt := idx_lt hi hj
  unfold pix Map.get
  rw [Nat.mod_eq_of_lt (by unfold W; omega), Res.rd_lt (by omega)]
  simp [hl, hlt]

theorem sub64_eq {a b : Nat} (h : b ≤ a) (ha : a < 2 ^ 64) (hb : 0 < b) : sub64 a b = a - b := by
  unfold sub64 W
  rw [show a + (2 ^ 64 - b) = 2 ^ 64 + (a - b) by omega, Nat.add_mod_left, Nat.mod_eq_of_lt (by omega)]

theorem toInt_eq {n : Nat} (h : n < 2 ^ 63) : toInt n = n := by unfold toInt; rw [if_pos h]

theorem floorInt_ok {x : K} (hx : InRange x) : floorInt x = .ok ⌊x⌋ := if_pos hx

variable [IsStrictOrderedRing K]

/-- the cell that the code chooses -/
theorem cellOf_spec {d : Nat} (hd : 2 ≤ d) (hd' : d < 2 ^ 63) {x : K} (hx : InRange x) :
    ∃ i, cellOf d x = .ok (i, x - (i : K)) ∧ InCell d x i := by
  unfold cellOf
  rw [floorInt_ok hx, Res.ok_bind]
  by_cases h0 : ⌊x⌋ < 0
  · refine ⟨0, by rw [if_pos h0]; simp, by omega, .inl rfl, .inr ?_⟩
    have := Int.floor_lt.1 h0
    simp only [Int.cast_zero] at this
    simp only [Nat.cast_zero, zero_add]
    linarith
  · rw [if_neg h0]
    obtain ⟨t, ht⟩ : ∃ t : Nat, ⌊x⌋ = t := ⟨⌊x⌋.toNat, by omega⟩
    rw [sub64_eq (by omega) (by omega) (by omega), sub64_eq (by omega) (by omega) (by omega), ht, Int.toNat_natCast]
    have h1 : (t : K) ≤ x := by
      have := Int.floor_le x; rw [ht] at this; exact_mod_cast this
    have h2 : x < (t : K) + 1 := by
      have := Int.lt_floor_add_one x; rw [ht] at this; exact_mod_cast this
    by_cases hc : d - 1 ≤ t
    · refine ⟨d - 2, ?_, by omega, .inr ?_, .inl (by omega)⟩
      · rw [if_pos hc, toInt_eq (by omega)]; simp
      · exact le_trans (Nat.cast_le.2 (by omega)) h1
    · refine ⟨t, by rw [if_neg hc]; simp, by omega, .inr h1, .inr h2.le⟩

omit [LinearOrder K] [FloorRing K] [IsStrictOrderedRing K] in
theorem fromCell_eq {m : Map K} (h : m.Good) {i j : Nat} (hi : i + 1 < m.d0) (hj : j + 1 < m.d1) (dx dy : K) :
    fromCell m i j dx dy = .ok (bil4 (m.get i j) (m.get i (j + 1)) (m.get (i + 1) j) (m.get (i + 1) (j + 1)) dx dy) := by
  have a := h.d0_lt
  have b := h.d1_lt
  unfold fromCell
  rw [Nat.mod_eq_of_lt (show i + 1 < W by unfold W; omega), Nat.mod_eq_of_lt (show j + 1 < W by unfold W; omega),
    pix_get h.len h.small (by omega) (by omega), pix_get h.len h.small (by omega) (by omega), pix_get h.len h.small (by omega) (by omega),
    pix_get h.len h.small (by omega) (by omega)]
  rfl

/-- Spec: linear interpolation along one axis in the cell `i` -/
def lin (v : Nat → K) (x : K) (i : Nat) : K := v i + (v (i + 1) - v i) * (x - (i : K))

/-- the same with a sum of ramps, which does not depend on the cell -/
def ramps (n : Nat) (v : Nat → K) (x : K) : K :=
  v 0 + (v 1 - v 0) * x + ((List.range (n - 2)).map fun k => (v (k + 2) - 2 * v (k + 1) + v k) * max 0 (x - ((k + 1 : Nat) : K))).sum

omit [FloorRing K] [LinearOrder K] [IsStrictOrderedRing K] in
theorem ramp_sum (v : Nat → K) (x : K) : ∀ c : Nat,
    v 0 + (v 1 - v 0) * x + ((List.range c).map fun k => (v (k + 2) - 2 * v (k + 1) + v k) * (x - ((k + 1 : Nat) : K))).sum = lin v x c := by
  intro c
  induction c with
  | zero => simp [lin]
  | succ c ih =>
    rw [List.range_succ, List.map_append, List.sum_append, ← add_assoc, ih]
    simp only [List.map_cons, List.map_nil, List.sum_cons, List.sum_nil, lin]
    push_cast
    ring

omit [FloorRing K] in
theorem lin_ramps (v : Nat → K) {d : Nat} {x : K} {c : Nat} (h : InCell d x c) : lin v x c = ramps d v x := by
  obtain ⟨h1, h2, h3⟩ := h
  rw [← ramp_sum v x c, ramps]
  obtain ⟨e, he⟩ : ∃ e, d - 2 = c + e := ⟨d - 2 - c, by omega⟩
  rw [he, List.range_add, List.map_append, List.sum_append]
  have z : (List.map (fun k => (v (k + 2) - 2 * v (k + 1) + v k) * max 0 (x - ((k + 1 : Nat) : K))) (List.map (c + ·) (List.range e))).sum = 0 := by
    rw [List.map_map]
    refine List.sum_eq_zero fun y hy => ?_
    obtain ⟨k, hk, rfl⟩ := List.mem_map.1 hy
    rw [List.mem_range] at hk
    have : x ≤ ((c + k + 1 : Nat) : K) := by
      rcases h3 with h3 | h3
      · omega
      · have h0 : (0 : K) ≤ (k : K) := Nat.cast_nonneg k
        push_cast
        linarith
    simp only [Function.comp]
    rw [max_eq_left (by linarith), mul_zero]
  rw [z, add_zero]
  congr 2
  refine List.map_congr_left fun k hk => ?_
  rw [List.mem_range] at hk
  rw [max_eq_right]
  rcases h2 with rfl | h2
  · omega
  · have : ((k + 1 : Nat) : K) ≤ (c : K) := Nat.cast_le.2 (by omega)
    linarith

omit [LinearOrder K] [FloorRing K] [IsStrictOrderedRing K] in
theorem bil4_lin (P : Nat → Nat → K) (i j : Nat) (x y : K) :
    bil4 (P i j) (P i (j + 1)) (P (i + 1) j) (P (i + 1) (j + 1)) (x - (i : K)) (y - (j : K)) = lin (fun i => lin (P i) y j) x i := by
  unfold bil4 lin; ring

/-- the value, whatever the cell -/
theorem bilinear_ramps {m : Map K} (h : m.Good) {x y : K} (hx : InRange x) (hy : InRange y) :
    bilinear m x y = .ok (ramps m.d0 (fun i => ramps m.d1 (m.get i) y) x) := by
  obtain ⟨i, h1, h2⟩ := cellOf_spec h.h0 h.d0_lt hx
  obtain ⟨j, h3, h4⟩ := cellOf_spec h.h1 h.d1_lt hy
  unfold bilinear
  rw [h1, Res.ok_bind]
  simp only
  rw [h3, Res.ok_bind]
  simp only
  rw [fromCell_eq h h2.1 h4.1, bil4_lin, ← lin_ramps _ h2]
  congr 2
  funext i
  exact lin_ramps _ h4

/-- **C95**: in every cell that contains the position the result is the bilinear combination of its four corners; outside of the image the
nearest cell is extended. -/
theorem C95_cell {m : Map K} (h : m.Good) {x y : K} (hx : InRange x) (hy : InRange y) (i j : Nat) (hi : InCell m.d0 x i) (hj : InCell m.d1 y j) :
    bilinear m x y = .ok (m.get i j * ((i : K) + 1 - x) * ((j : K) + 1 - y) + m.get i (j + 1) * ((i : K) + 1 - x) * (y - j)
      + m.get (i + 1) j * (x - i) * ((j : K) + 1 - y) + m.get (i + 1) (j + 1) * (x - i) * (y - j)) := by
  rw [bilinear_ramps h hx hy, ← lin_ramps _ hi]
  congr 1
  simp only [← lin_ramps _ hj, lin]
  ring

/-- a position is always in some cell -/
theorem inCell_exists {d : Nat} (hd : 2 ≤ d) (hd' : d < 2 ^ 63) {x : K} (hx : InRange x) : ∃ i, InCell d x i := by
  obtain ⟨i, -, h⟩ := cellOf_spec hd hd' hx
  exact ⟨i, h⟩

theorem inRange_nat {n : Nat} (h : n < 2 ^ 63) : InRange (n : K) := by
  unfold InRange
  rw [Int.floor_natCast]
  omega

omit [FloorRing K] in
/-- a pixel is in the cell that starts at it, or ends at it if it is the last one -/
theorem inCell_nat {d n : Nat} (hd : 2 ≤ d) (h : n < d) : InCell d (n : K) n ∨ (n = d - 1 ∧ InCell d (n : K) (n - 1)) := by
  by_cases hn : n + 1 < d
  · exact .inl ⟨hn, .inr le_rfl, .inr (by linarith)⟩
  · refine .inr ⟨by omega, by omega, .inr (Nat.cast_le.2 (by omega)), .inl (by omega)⟩

omit [FloorRing K] in
theorem ramps_node (v : Nat → K) {d n : Nat} (hd : 2 ≤ d) (h : n < d) : ramps d v (n : K) = v n := by
  rcases inCell_nat (K := K) hd h with h1 | ⟨hnd, h1⟩
  · rw [← lin_ramps _ h1, lin, sub_self, mul_zero, add_zero]
  · rw [← lin_ramps _ h1, lin]
    have : n - 1 + 1 = n := by omega
    rw [this, Nat.cast_sub (by omega)]
    push_cast
    ring

/-- **C95**: at a pixel the result is the pixel. -/
theorem C95_node {m : Map K} (h : m.Good) (i j : Nat) (hi : i < m.d0) (hj : j < m.d1) : bilinear m (i : K) (j : K) = .ok (m.get i j) := by
  have a := h.d0_lt
  have b := h.d1_lt
  rw [bilinear_ramps h (inRange_nat (by omega)) (inRange_nat (by omega)), ramps_node _ h.h0 hi, ramps_node _ h.h1 hj]

/-- **C95**: an image that is a bilinear function of the position is reproduced at all positions, inside and outside of the image. -/
theorem C95_exact {m : Map K} (h : m.Good) (a b c e : K) (hm : ∀ i j, i < m.d0 → j < m.d1 → m.get i j = a + b * i + c * j + e * i * j)
    {x y : K} (hx : InRange x) (hy : InRange y) : bilinear m x y = .ok (a + b * x + c * y + e * x * y) := by
  obtain ⟨i, hi⟩ := inCell_exists h.h0 h.d0_lt hx
  obtain ⟨j, hj⟩ := inCell_exists h.h1 h.d1_lt hy
  have := hi.1
  have := hj.1
  rw [C95_cell h hx hy i j hi hj, hm _ _ (by omega) (by omega), hm _ _ (by omega) (by omega), hm _ _ (by omega) (by omega), hm _ _ (by omega) (by omega)]
  congr 1
  push_cast
  ring

omit [FloorRing K] in
theorem between {a b t lo hi : K} (ha : lo ≤ a ∧ a ≤ hi) (hb : lo ≤ b ∧ b ≤ hi) (h0 : 0 ≤ t) (h1 : t ≤ 1) : lo ≤ a + (b - a) * t ∧ a + (b - a) * t ≤ hi := by
  have e : a + (b - a) * t = a * (1 - t) + b * t := by ring
  have s : 0 ≤ 1 - t := by linarith
  rw [e]
  constructor
  · have := mul_le_mul_of_nonneg_right ha.1 s
    have := mul_le_mul_of_nonneg_right hb.1 h0
    linarith
  · have := mul_le_mul_of_nonneg_right ha.2 s
    have := mul_le_mul_of_nonneg_right hb.2 h0
    linarith

/-- **C95**: inside the image the result is between the smallest and the largest of the four pixels around. -/
theorem C95_between {m : Map K} (h : m.Good) {x y : K} (i j : Nat) (hi : i + 1 < m.d0) (hj : j + 1 < m.d1)
    (hx0 : (i : K) ≤ x) (hx1 : x ≤ (i : K) + 1) (hy0 : (j : K) ≤ y) (hy1 : y ≤ (j : K) + 1) (lo up : K)
    (hp : ∀ a b, a ≤ 1 → b ≤ 1 → lo ≤ m.get (i + a) (j + b) ∧ m.get (i + a) (j + b) ≤ up) :
    ∃ v, bilinear m x y = .ok v ∧ lo ≤ v ∧ v ≤ up := by
  have a0 := h.d0_lt
  have b0 := h.d1_lt
  have rng : ∀ (n : Nat) (z : K), n + 1 < 2 ^ 63 → (n : K) ≤ z → z ≤ (n : K) + 1 → InRange z := by
    intro n z hn h0 h1
    constructor
    · have : (0 : Int) ≤ ⌊z⌋ := Int.floor_nonneg.2 (le_trans (Nat.cast_nonneg n) h0)
      omega
    · have : ⌊z⌋ ≤ (n + 1 : Nat) := by
        have := Int.floor_le_floor h1
        rw [show (n : K) + 1 = ((n + 1 : Nat) : K) by push_cast; ring, Int.floor_natCast] at this
        exact this
      omega
  have hcx : InCell m.d0 x i := ⟨hi, .inr hx0, .inr hx1⟩
  have hcy : InCell m.d1 y j := ⟨hj, .inr hy0, .inr hy1⟩
  refine ⟨_, bilinear_ramps h (rng i x (by omega) hx0 hx1) (rng j y (by omega) hy0 hy1), ?_⟩
  rw [← lin_ramps _ hcx]
  simp only [← lin_ramps _ hcy, lin]
  have p00 := hp 0 0 (by omega) (by omega)
  have p01 := hp 0 1 (by omega) (by omega)
  have p10 := hp 1 0 (by omega) (by omega)
  have p11 := hp 1 1 (by omega) (by omega)
  simp only [add_zero] at p00 p01 p10
  exact between (between p00 p01 (by linarith) (by linarith)) (between p10 p11 (by linarith) (by linarith)) (by linarith) (by linarith)

theorem inside_iff {d : Nat} (hd : 2 ≤ d) (hd' : d < 2 ^ 63) (x : K) :
    ¬ (⌊x⌋ < 0 ∨ sub64 d 1 ≤ ⌊x⌋.toNat) ↔ 0 ≤ x ∧ x < ((d - 1 : Nat) : K) := by
  rw [sub64_eq (by omega) (by omega) (by omega), not_or, not_lt, not_le, Int.floor_nonneg]
  constructor
  · rintro ⟨h0, h1⟩
    refine ⟨h0, ?_⟩
    have hf : (0 : Int) ≤ ⌊x⌋ := Int.floor_nonneg.2 h0
    have h2 : ⌊x⌋ < ((d - 1 : Nat) : Int) := by omega
    have := Int.floor_lt.1 h2
    exact_mod_cast this
  · rintro ⟨h0, h1⟩
    refine ⟨h0, ?_⟩
    have hf : (0 : Int) ≤ ⌊x⌋ := Int.floor_nonneg.2 h0
    have h2 : ⌊x⌋ < ((d - 1 : Nat) : Int) := Int.floor_lt.2 (by exact_mod_cast h1)
    omega

/-- **C95**: `bilinear_strict` is `bilinear` when `0 ≤ x < dims[0]-1` and `0 ≤ y < dims[1]-1`, and the default value otherwise. -/
theorem C95_strict {m : Map K} (h : m.Good) {x y : K} (hx : InRange x) (hy : InRange y) (dflt : K) :
    bilinearStrict m x y dflt =
      if (0 ≤ x ∧ x < ((m.d0 - 1 : Nat) : K)) ∧ (0 ≤ y ∧ y < ((m.d1 - 1 : Nat) : K)) then bilinear m x y else .ok dflt := by
  have ix := inside_iff h.h0 h.d0_lt x
  have iy := inside_iff h.h1 h.d1_lt y
  unfold bilinearStrict
  rw [floorInt_ok hx, Res.ok_bind, floorInt_ok hy, Res.ok_bind]
  by_cases hc : (0 ≤ x ∧ x < ((m.d0 - 1 : Nat) : K)) ∧ (0 ≤ y ∧ y < ((m.d1 - 1 : Nat) : K))
  · rw [if_pos hc]
    have nx := ix.2 hc.1
    have ny := iy.2 hc.2
    obtain ⟨nx1, nx2⟩ := not_or.1 nx
    obtain ⟨ny1, ny2⟩ := not_or.1 ny
    rw [if_neg (not_or.2 ⟨nx1, not_or.2 ⟨nx2, ny⟩⟩)]
    have c : ∀ (d : Nat) (z : K), InRange z → ¬ ⌊z⌋ < 0 → ¬ sub64 d 1 ≤ ⌊z⌋.toNat → cellOf d z = .ok (⌊z⌋.toNat, z - ((⌊z⌋ : Int) : K)) := by
      intro d z hz h1 h2
      unfold cellOf
      rw [floorInt_ok hz, Res.ok_bind, if_neg h1, if_neg h2]
    unfold bilinear
    rw [c _ _ hx nx1 nx2, Res.ok_bind]
    simp only
    rw [c _ _ hy ny1 ny2, Res.ok_bind]
  · rw [if_neg hc, if_pos]
    by_contra hn
    refine hc ⟨ix.1 fun h => hn ?_, iy.1 fun h => hn ?_⟩
    · rcases h with h | h
      · exact .inl h
      · exact .inr (.inl h)
    · exact .inr (.inr h)

/-- Finding: at the pixels of the last row or column `bilinear_strict` gives the default value, although they are in the image. -/
theorem C95_strict_edge_refuted {m : Map K} (h : m.Good) (i j : Nat) (hi : i < m.d0) (hj : j < m.d1) (hl : i = m.d0 - 1 ∨ j = m.d1 - 1) (dflt : K) :
    bilinearStrict m (i : K) (j : K) dflt = .ok dflt := by
  have a := h.d0_lt
  have b := h.d1_lt
  rw [C95_strict h (inRange_nat (by omega)) (inRange_nat (by omega)), if_neg]
  rintro ⟨⟨-, h1⟩, -, h2⟩
  rw [Nat.cast_lt] at h1 h2
  omega

/-- Finding: an image of one row is read out of bounds. -/
theorem C95_line_refuted (data : List K) (hd : 2 ≤ data.length) (hs : data.length < 2 ^ 63) (x y : K) (hx : InRange x) (h0 : 0 ≤ x) (hy : InRange y) :
    bilinear ⟨data, 1, data.length⟩ x y = .ub := by
  unfold bilinear
  obtain ⟨j, h1, h2, -⟩ := cellOf_spec hd hs hy
  have hcx : cellOf 1 x = .ok (W - 1, x - ((-1 : Int) : K)) := by
    unfold cellOf
    rw [floorInt_ok hx, Res.ok_bind, if_neg (by have := Int.floor_nonneg.2 h0; omega), if_pos (by rw [show sub64 1 1 = 0 from rfl]; omega)]
    rfl
  simp only [hcx, Res.ok_bind, h1]
  unfold fromCell pix
  simp only
  rw [Res.rd_ub]
  · rfl
  · have : ((W - 1) * data.length + j) % W = W - data.length + j := by
      have e : (W - 1) * data.length + j = (W - data.length + j) + W * (data.length - 1) := by
        obtain ⟨n, hn⟩ : ∃ n, data.length = n + 1 := ⟨data.length - 1, by omega⟩
        rw [hn, Nat.add_sub_cancel]
        unfold W at *
        omega
      rw [e, Nat.add_mul_mod_self_left, Nat.mod_eq_of_lt]
      unfold W; omega
    rw [this]
    unfold W; omega

omit [LinearOrder K] [FloorRing K] [IsStrictOrderedRing K] in
theorem indgen_length (n : Nat) : (indgen n : List K).length = n := by simp only [indgen, List.length_map, List.length_range]

/-- **C95**: with axes, the result at a point of the grid is the pixel. -/
theorem C95_axes_node {m : Map K} (h : m.Good) (mx my : List K) (hmx : Increasing mx) (hmy : Increasing my) (hlx : m.d0 = mx.length) (hly : m.d1 = my.length)
    (i j : Nat) (hi : i < mx.length) (hj : j < my.length) : bilinearAxes m mx my mx[i] my[j] = .ok (m.get i j) := by
  unfold bilinearAxes
  have := h.h0
  have := h.h1
  rw [Res.check_pos hlx, Res.ok_bind, Res.check_pos hly, Res.ok_bind, C30_knot _ mx hmx (indgen_length _) (by omega) i hi, Res.ok_bind,
    C30_knot _ my hmy (indgen_length _) (by omega) j hj, Res.ok_bind]
  have ex : (indgen mx.length : List K)[i]'(by rw [indgen_length]; exact hi) = (i : K) := by simp only [indgen, List.getElem_map, List.getElem_range]
  have ey : (indgen my.length : List K)[j]'(by rw [indgen_length]; exact hj) = (j : K) := by simp only [indgen, List.getElem_map, List.getElem_range]
  rw [ex, ey]
  exact C95_node h i j (by omega) (by omega)

/-- **C95**: `rebin` onto the same grid is the identity. -/
theorem C95_rebin_same {m : Map K} (h : m.Good) (mx my : List K) (hmx : Increasing mx) (hmy : Increasing my) (hlx : m.d0 = mx.length) (hly : m.d1 = my.length) :
    rebin m mx my mx my = .ok m := by
  have h0 := h.h0
  have h1 := h.h1
  have key : ∀ (ax : List K), Increasing ax → 2 ≤ ax.length → interpolateV (indgen ax.length) ax ax = .ok (indgen ax.length) := by
    intro ax hax hn
    rw [C30_vector _ _ (indgen_length _) hn]
    refine Res.mapM_getElem (by rw [indgen_length]) fun i hi hi' => ?_
    exact C30_knot _ ax hax (indgen_length _) hn i hi
  unfold rebin
  rw [Res.check_pos hlx, Res.ok_bind, Res.check_pos hly, Res.ok_bind, key mx hmx (by omega), Res.ok_bind, key my hmy (by omega), Res.ok_bind]
  have hrows : (indgen mx.length : List K).mapM (fun a => (indgen my.length : List K).mapM fun b => bilinear m a b) =
      .ok ((List.range mx.length).map fun i => (List.range my.length).map fun j => m.get i j) := by
    unfold indgen
    rw [List.mapM_map]
    refine Res.mapM_ok fun i hi => ?_
    rw [List.mem_range] at hi
    simp only [Function.comp]
    rw [List.mapM_map]
    refine Res.mapM_ok fun j hj => ?_
    rw [List.mem_range] at hj
    exact C95_node h i j (by omega) (by omega)
  rw [hrows, Res.ok_bind]
  congr 1
  have hdata : ((List.range mx.length).map fun i => (List.range my.length).map fun j => m.get i j).flatten = m.data := by
    have gen : ∀ n, n ≤ m.d0 → ((List.range n).map fun i => (List.range my.length).map fun j => m.get i j).flatten = m.data.take (n * m.d1) := by
      intro n
      induction n with
      | zero => simp
      | succ n ih =>
        intro hn
        rw [List.range_succ, List.map_append, List.flatten_append, ih (by omega), Nat.succ_mul, List.take_add]
        congr 1
        simp only [List.map_cons, List.map_nil, List.flatten_cons, List.flatten_nil, List.append_nil]
        have hb := Nat.mul_le_mul_right m.d1 hn
        rw [Nat.succ_mul] at hb
        refine List.ext_getElem (by simp [h.len]; omega) fun j hj1 hj2 => ?_
        simp only [List.length_map, List.length_range] at hj1
        simp only [List.getElem_map, List.getElem_range, List.getElem_take, List.getElem_drop, Map.get]
        rw [List.getD_eq_getElem?_getD, List.getElem?_eq_getElem (by rw [h.len]; omega), Option.getD_some]
    rw [gen _ (by omega), ← hlx, List.take_of_length_le (by rw [h.len])]
  rw [hdata, ← hlx, ← hly]

/-- positions inside an axis -/
theorem axis_inside {ax : List K} (h : Increasing ax) (hn : 2 ≤ ax.length) {t : K} (h0 : ax[0] ≤ t) (h1 : t ≤ ax[ax.length - 1]) :
    ∃ (u : K) (k : Nat) (hk : k + 1 < ax.length), interpolate (indgen ax.length) ax t = .ok u ∧ (k : K) ≤ u ∧ u ≤ (k : K) + 1 ∧
      ax[k] + (ax[k + 1] - ax[k]) * (u - (k : K)) = t := by
  obtain ⟨u, k, e1, hc, hk, b0, b1⟩ := interpAt_chord (y := indgen ax.length) h (indgen_length _) hn t
  refine ⟨u, k, hk, by rw [interpolate_eq (indgen_length _) hn, e1], ?_⟩
  obtain ⟨xa, xb, ya, yb, g1, g2, g3, g4, g5⟩ := hc
  obtain ⟨i1, rfl⟩ := List.getElem?_eq_some_iff.1 g1
  obtain ⟨i2, rfl⟩ := List.getElem?_eq_some_iff.1 g2
  obtain ⟨i3, rfl⟩ := List.getElem?_eq_some_iff.1 g3
  obtain ⟨i4, rfl⟩ := List.getElem?_eq_some_iff.1 g4
  have hlt := h.lt (show k < k + 1 by omega) i2
  have ex : (indgen ax.length : List K)[k]'i3 = (k : K) := by simp only [indgen, List.getElem_map, List.getElem_range]
  have ey : (indgen ax.length : List K)[k + 1]'i4 = (k : K) + 1 := by simp only [indgen, List.getElem_map, List.getElem_range]; push_cast; ring
  rw [ex, ey] at g5
  have hd : 0 < ax[k + 1] - ax[k] := by linarith
  have rel : (u - (k : K)) * (ax[k + 1] - ax[k]) = t - ax[k] := by linear_combination g5
  have lo : ax[k] ≤ t := by
    rcases b0 with b0 | rfl
    · exact b0
    · exact h0
  have hi : t ≤ ax[k + 1] := by
    rcases b1 with b1 | b1
    · exact b1.le
    · have : k + 1 = ax.length - 1 := by omega
      simp only [this]; exact h1
  refine ⟨?_, ?_, by linear_combination rel⟩
  · by_contra hc
    have := mul_neg_of_neg_of_pos (show u - (k : K) < 0 by linarith) hd
    linarith
  · by_contra hc
    have := mul_pos (show 0 < u - (k : K) - 1 by linarith) hd
    linarith

theorem inRange_between {n : Nat} {z : K} (hn : n + 1 < 2 ^ 63) (h0 : (n : K) ≤ z) (h1 : z ≤ (n : K) + 1) : InRange z := by
  constructor
  · have : (0 : Int) ≤ ⌊z⌋ := Int.floor_nonneg.2 (le_trans (Nat.cast_nonneg n) h0)
    omega
  · have : ⌊z⌋ ≤ (n + 1 : Nat) := by
      have := Int.floor_le_floor h1
      rw [show (n : K) + 1 = ((n + 1 : Nat) : K) by push_cast; ring, Int.floor_natCast] at this
      exact this
    omega

/-- Spec: the positions covered by an axis -/
def Covers (ax : List K) (t : K) : Prop := ∃ (i j : Nat) (hi : i < ax.length) (hj : j < ax.length), ax[i] ≤ t ∧ t ≤ ax[j]

omit [FloorRing K] in
theorem Covers.ends {ax : List K} (h : Increasing ax) (hn : 2 ≤ ax.length) {t : K} (hc : Covers ax t) : ax[0] ≤ t ∧ t ≤ ax[ax.length - 1] := by
  obtain ⟨i, j, hi, hj, h1, h2⟩ := hc
  exact ⟨le_trans (h.le (by omega) hi) h1, le_trans h2 (h.le (by omega) (by omega))⟩

/-- **C95**: with axes, an image that is a bilinear function of the coordinates is reproduced at all positions inside the axes, however
irregular these are. -/
theorem C95_axes_exact {m : Map K} (h : m.Good) (mx my : List K) (hmx : Increasing mx) (hmy : Increasing my) (hlx : m.d0 = mx.length) (hly : m.d1 = my.length)
    (a b c e : K) (hm : ∀ i j (hi : i < mx.length) (hj : j < my.length), m.get i j = a + b * mx[i] + c * my[j] + e * mx[i] * my[j])
    {x y : K} (hx : Covers mx x) (hy : Covers my y) : bilinearAxes m mx my x y = .ok (a + b * x + c * y + e * x * y) := by
  have h0 := h.h0
  have h1 := h.h1
  have a0 := h.d0_lt
  have b0 := h.d1_lt
  obtain ⟨u, i, hi, e1, i0, i1, ri⟩ := axis_inside hmx (by omega) (hx.ends hmx (by omega)).1 (hx.ends hmx (by omega)).2
  obtain ⟨v, j, hj, e2, j0, j1, rj⟩ := axis_inside hmy (by omega) (hy.ends hmy (by omega)).1 (hy.ends hmy (by omega)).2
  unfold bilinearAxes
  rw [Res.check_pos hlx, Res.ok_bind, Res.check_pos hly, Res.ok_bind, e1, Res.ok_bind, e2, Res.ok_bind,
    C95_cell h (inRange_between (by omega) i0 i1) (inRange_between (by omega) j0 j1) i j ⟨by omega, .inr i0, .inr i1⟩ ⟨by omega, .inr j0, .inr j1⟩,
    hm _ _ (by omega) (by omega), hm _ _ (by omega) hj, hm _ _ hi (by omega), hm _ _ hi hj, ← ri, ← rj]
  congr 1
  ring

omit [LinearOrder K] [FloorRing K] [IsStrictOrderedRing K] in
theorem flatten_get (g : K → List K) (w : Nat) (hw : ∀ a, (g a).length = w) : ∀ (l : List K) (n k : Nat) (hn : n < l.length), k < w →
    ((l.map g).flatten).getD (n * w + k) 0 = (g l[n]).getD k 0 := by
  intro l
  induction l with
  | nil => intro n k hn; simp at hn
  | cons a l ih =>
    intro n k hn hk
    simp only [List.map_cons, List.flatten_cons]
    cases n with
    | zero =>
      rw [Nat.zero_mul, Nat.zero_add]
      simp only [List.getD_eq_getElem?_getD]
      rw [List.getElem?_append_left (by rw [hw]; exact hk)]
      rfl
    | succ n =>
      have := ih n k (by simpa using hn) hk
      simp only [List.getD_eq_getElem?_getD] at this ⊢
      rw [List.getElem?_append_right (by rw [hw, Nat.succ_mul]; omega), hw, Nat.succ_mul, show n * w + w + k - w = n * w + k by omega, this]
      rfl

/-- **C95**: `rebin` gives at every point of the new grid inside the axes what `bilinear` gives there. -/
theorem C95_rebin {m : Map K} (h : m.Good) (mx my : List K) (hmx : Increasing mx) (hmy : Increasing my) (hlx : m.d0 = mx.length) (hly : m.d1 = my.length)
    (x y : List K) (hx : ∀ t ∈ x, Covers mx t) (hy : ∀ t ∈ y, Covers my t) :
    ∃ r, rebin m mx my x y = .ok r ∧ r.d0 = x.length ∧ r.d1 = y.length ∧ r.data.length = x.length * y.length ∧
      ∀ i j (hi : i < x.length) (hj : j < y.length), bilinearAxes m mx my x[i] y[j] = .ok (r.get i j) := by
  have h0 := h.h0
  have h1 := h.h1
  have a0 := h.d0_lt
  have b0 := h.d1_lt
  have ax : ∀ (ax : List K), Increasing ax → 2 ≤ ax.length → ax.length < 2 ^ 63 → ∀ t, ∃ u, Covers ax t → interpolate (indgen ax.length) ax t = .ok u ∧ InRange u := by
    intro ax hax hn hs t
    by_cases hc : Covers ax t
    · obtain ⟨u, k, hk, e1, k0, k1, -⟩ := axis_inside hax hn (hc.ends hax hn).1 (hc.ends hax hn).2
      exact ⟨u, fun _ => ⟨e1, inRange_between (by omega) k0 k1⟩⟩
    · exact ⟨0, fun h => absurd h hc⟩
  choose fx hfx using ax mx hmx (by omega) (by omega)
  choose fy hfy using ax my hmy (by omega) (by omega)
  let F : K → K → K := fun u v => ramps m.d0 (fun i => ramps m.d1 (m.get i) v) u
  have hF : ∀ t ∈ x, ∀ s ∈ y, bilinear m (fx t) (fy s) = .ok (F (fx t) (fy s)) := fun t ht s hs =>
    bilinear_ramps h (hfx t (hx t ht)).2 (hfy s (hy s hs)).2
  refine ⟨⟨((x.map fx).map fun a => (y.map fy).map fun b => F a b).flatten, x.length, y.length⟩, ?_, rfl, rfl, ?_, ?_⟩
  · unfold rebin
    rw [Res.check_pos hlx, Res.ok_bind, Res.check_pos hly, Res.ok_bind, C30_vector _ _ (indgen_length _) (by omega), C30_vector _ _ (indgen_length _) (by omega),
      Res.mapM_ok (g := fx) fun t ht => (hfx t (hx t ht)).1, Res.ok_bind, Res.mapM_ok (g := fy) fun t ht => (hfy t (hy t ht)).1, Res.ok_bind]
    rw [Res.mapM_ok (g := fun a => (y.map fy).map fun b => F a b)]
    · rfl
    · intro a ha
      obtain ⟨t, ht, rfl⟩ := List.mem_map.1 ha
      refine Res.mapM_ok fun b hb => ?_
      obtain ⟨s, hs, rfl⟩ := List.mem_map.1 hb
      exact hF t ht s hs
  · simp [List.length_flatten, Function.comp_def, List.map_const', List.sum_replicate]
  · intro i j hi hj
    unfold bilinearAxes
    rw [Res.check_pos hlx, Res.ok_bind, Res.check_pos hly, Res.ok_bind, (hfx _ (hx _ (List.getElem_mem hi))).1, Res.ok_bind,
      (hfy _ (hy _ (List.getElem_mem hj))).1, Res.ok_bind, hF _ (List.getElem_mem hi) _ (List.getElem_mem hj)]
    congr 1
    unfold Map.get
    simp only
    have := flatten_get (fun a => (y.map fy).map fun b => F a b) y.length (by simp) (x.map fx) i j (by simpa using hi) hj
    rw [this]
    simp [hj]

/-- **C95**: with axes of other sizes than the image the calls are refused. -/
theorem C95_refused (m : Map K) (mx my : List K) (hne : m.d0 ≠ mx.length ∨ m.d1 ≠ my.length) (x y : K) (xs ys : List K) :
    bilinearAxes m mx my x y = .abort ∧ bilinearAxesV m mx my xs ys = .abort ∧ rebin m mx my xs ys = .abort := by
  unfold bilinearAxes bilinearAxesV rebin
  by_cases h1 : m.d0 = mx.length
  · have h2 : ¬ m.d1 = my.length := by tauto
    rw [Res.check_pos h1, Res.ok_bind, Res.ok_bind, Res.ok_bind, Res.check_neg h2]
    exact ⟨rfl, rfl, rfl⟩
  · rw [Res.check_neg h1]
    exact ⟨rfl, rfl, rfl⟩

/-- **C95**: the form for vectors of positions does the same for each pair of positions. -/
theorem C95_vector {m : Map K} (h : m.Good) (mx my : List K) (hmx : Increasing mx) (hmy : Increasing my) (hlx : m.d0 = mx.length) (hly : m.d1 = my.length)
    (ps : List (K × K)) (hp : ∀ p ∈ ps, Covers mx p.1 ∧ Covers my p.2) :
    bilinearAxesV m mx my (ps.map Prod.fst) (ps.map Prod.snd) = ps.mapM fun p => bilinearAxes m mx my p.1 p.2 := by
  have h0 := h.h0
  have h1 := h.h1
  unfold bilinearAxesV
  rw [Res.check_pos hlx, Res.ok_bind, Res.check_pos hly, Res.ok_bind, Res.check_pos (by simp), Res.ok_bind,
    C30_vector _ _ (indgen_length _) (by omega), C30_vector _ _ (indgen_length _) (by omega)]
  have ax : ∀ (ax : List K), Increasing ax → 2 ≤ ax.length → ∀ t, ∃ u, Covers ax t → interpolate (indgen ax.length) ax t = .ok u := by
    intro ax hax hn t
    by_cases hc : Covers ax t
    · obtain ⟨u, k, hk, e1, k0, k1, -⟩ := axis_inside hax hn (hc.ends hax hn).1 (hc.ends hax hn).2
      exact ⟨u, fun _ => e1⟩
    · exact ⟨0, fun h => absurd h hc⟩
  choose fx hfx using ax mx hmx (by omega)
  choose fy hfy using ax my hmy (by omega)
  rw [Res.mapM_ok (g := fx) (fun t ht => by obtain ⟨p, hp', rfl⟩ := List.mem_map.1 ht; exact hfx _ (hp p hp').1), Res.ok_bind,
    Res.mapM_ok (g := fy) (fun t ht => by obtain ⟨p, hp', rfl⟩ := List.mem_map.1 ht; exact hfy _ (hp p hp').2), Res.ok_bind]
  induction ps with
  | nil => rfl
  | cons p ps ih =>
    simp only [List.map_cons, List.zip_cons_cons, List.mapM_cons]
    rw [ih fun q hq => hp q (by simp [hq])]
    congr 1
    unfold bilinearAxes
    rw [Res.check_pos hlx, Res.ok_bind, Res.check_pos hly, Res.ok_bind, hfx _ (hp p (by simp)).1, Res.ok_bind, hfy _ (hp p (by simp)).2, Res.ok_bind]

/-- **C95**: the interpolated image is continuous in the whole plane. -/
theorem C95_continuous {m : Map ℝ} (h : m.Good) :
    ∃ F : ℝ × ℝ → ℝ, Continuous F ∧ ∀ x y, InRange x → InRange y → bilinear m x y = .ok (F (x, y)) := by
  refine ⟨fun p => ramps m.d0 (fun i => ramps m.d1 (m.get i) p.2) p.1, ?_, fun x y hx hy => bilinear_ramps h hx hy⟩
  have c1 : ∀ (n : Nat) (v : Nat → ℝ × ℝ → ℝ) (t : ℝ × ℝ → ℝ), (∀ i, Continuous (v i)) → Continuous t → Continuous fun p => ramps n (fun i => v i p) (t p) := by
    intro n v t hv ht
    unfold ramps
    refine Continuous.add ((hv 0).add (((hv 1).sub (hv 0)).mul ht)) ?_
    generalize List.range (n - 2) = l
    induction l with
    | nil => simpa using continuous_const
    | cons k l ih =>
      simp only [List.map_cons, List.sum_cons]
      exact ((((hv _).sub (continuous_const.mul (hv _))).add (hv _)).mul (continuous_const.max (ht.sub continuous_const))).add ih
  exact c1 _ (fun i p => ramps m.d1 (m.get i) p.2) (fun p => p.1) (fun i => c1 _ (fun j _ => m.get i j) (fun p => p.2) (fun _ => continuous_const) continuous_snd) continuous_fst

/-- a case that meets the hypotheses: an image of 2x3 pixels -/
example : (⟨[1, 2, 4, 8, 16, 32], 2, 3⟩ : Map ℚ).Good := ⟨rfl, by norm_num, by norm_num, by norm_num⟩
example : InRange (1 / 2 : ℚ) ∧ InCell 2 (1 / 2 : ℚ) 0 ∧ InCell 3 (3 / 2 : ℚ) 1 := by
  unfold InRange InCell
  norm_num [show ⌊(1 / 2 : ℚ)⌋ = 0 by rw [Int.floor_eq_zero_iff]; norm_num]
example : bilinear (⟨[1, 2, 4, 8, 16, 32], 2, 3⟩ : Map ℚ) (1 / 2) (3 / 2) = .ok (27 / 2) := by decide +kernel
example : rebin (⟨[1, 2, 4, 8], 2, 2⟩ : Map ℚ) [0, 4] [1, 2] [1, 2] [1] = .ok ⟨[7 / 4, 5 / 2], 2, 1⟩ := by decide +kernel

end Verif.Bil
