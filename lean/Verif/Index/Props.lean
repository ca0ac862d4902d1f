import Verif.Index.Lemmas
/-!
# Properties C03, C04, C23

Specification vocabulary, independent of the model:
* `InRange dims ids` — one coordinate per dimension, each below its dimension;
* `dims.prod` — number of elements;
* `List.Lex (· < ·)` — "row-major order" is the lexicographic order of multi-indices.
-/
namespace Verif.Index
open Verif

/-! ## C04: scalar indices -/

/-- The whole contract of a scalar access `v[i]`: what is read, and when it aborts. -/
theorem C04_access_spec {α : Type} (v : List α) (i : Int) :
    at' v i =
      if v.length = 0 then .abort
      else if i < 0 then (match v[(i % (v.length : Int)).toNat]? with | some a => .ok a | none => .ub)
      else if h : i.toNat < v.length then .ok v[i.toNat] else .abort := by
  unfold at'
  rw [toIdxSigned_eq]
  split
  · rfl
  · split
    · rfl
    · by_cases h : i < v.length
      · have h' : i.toNat < v.length := by omega
        simp [h, h']
      · have h' : ¬ i.toNat < v.length := by omega
        simp [h, h']

/-- A negative index reads the element whose position is congruent to it modulo the size. -/
theorem C04_negative_wraps {α : Type} (v : List α) (hv : v ≠ []) (i : Int) (hi : i < 0) :
    ∃ (k : Nat) (hk : k < v.length), at' v i = .ok v[k] ∧ (v.length : Int) ∣ (i - k) := by
  have hl : v.length ≠ 0 := by simpa using hv
  have h1 := Int.emod_nonneg i (b := (v.length : Int)) (by omega)
  have h2 := Int.emod_lt_of_pos i (b := (v.length : Int)) (by omega)
  refine ⟨(i % (v.length : Int)).toNat, by omega, ?_, ?_⟩
  · rw [C04_access_spec, if_neg hl, if_pos hi]
    have : (i % (v.length : Int)).toNat < v.length := by omega
    simp [this]
  · rw [Int.toNat_of_nonneg h1]; exact Int.dvd_self_sub_emod

example : at' [10, 20, 30] (-1) = .ok 30 ∧ at' [10, 20, 30] (-7) = .ok 30 := by
  simp [C04_access_spec]

/-- No access ever reads outside the vector, and every access terminates. -/
theorem C04_safe {α : Type} (v : List α) (i : Int) : (at' v i).Safe := by
  rw [C04_access_spec]
  split
  · trivial
  · split
    · have h1 := Int.emod_nonneg i (b := (v.length : Int)) (by omega)
      have h2 := Int.emod_lt_of_pos i (b := (v.length : Int)) (by omega)
      have : (i % (v.length : Int)).toNat < v.length := by omega
      simp [this]
    · split <;> trivial

/-- Aborts exactly on an empty vector or a non-negative index that is too large. -/
theorem C04_abort_iff {α : Type} (v : List α) (i : Int) :
    at' v i = .abort ↔ v = [] ∨ (v.length : Int) ≤ i := by
  rw [C04_access_spec]
  have hl : v.length = 0 ↔ v = [] := List.length_eq_zero_iff
  split
  · simp_all
  · rename_i h0
    split
    · have h1 := Int.emod_nonneg i (b := (v.length : Int)) (by omega)
      have h2 := Int.emod_lt_of_pos i (b := (v.length : Int)) (by omega)
      have : (i % (v.length : Int)).toNat < v.length := by omega
      simp [this]
      constructor
      · exact fun h => h0 (hl.2 h)
      · omega
    · split
      · simp only [reduceCtorEq, false_iff]; rw [← hl]; omega
      · simp only [true_iff]; right; omega

/-! Index types of `w` bits (`int8_t`, `int`, ...): the loop adds `size` modulo `2^w`. -/

/-- If the size fits in the index type (`size ≤ 2^(w-1)`) the wrapping loop terminates, with the
non-negative representative of `i` modulo `size` for negative `i`. -/
theorem C04_width_partial {w : Nat} (size : Nat) (hs : 0 < size) (hw : size ≤ 2 ^ (w - 1)) (hw0 : 0 < w)
    (i : BitVec w) :
    ∃ j, LoopExit size i j ∧ j.toInt = if i.toInt < 0 then i.toInt % size else i.toInt := by
  obtain ⟨n, hn⟩ : ∃ n : Nat, n = (-i.toInt).toNat := ⟨_, rfl⟩
  have hpow : (2:Nat) ^ w = 2 * 2 ^ (w - 1) := by
    rw [← Nat.pow_succ', Nat.succ_eq_add_one, Nat.sub_add_cancel hw0]
  induction n using Nat.strongRecOn generalizing i with
  | ind n ih =>
    by_cases hi : i.toInt < 0
    · have hlo : -(2 ^ (w - 1) : Int) ≤ i.toInt := by
        exact BitVec.le_toInt i
      have hadd : (i + BitVec.ofNat w size).toInt = i.toInt + size := by
        have hpc : ((2 : Int) ^ (w - 1)) = ((2 ^ (w - 1) : Nat) : Int) := by simp
        rw [BitVec.toInt_add, BitVec.toInt_ofNat', Int.add_bmod_bmod]
        rw [Int.bmod_def]
        have hm : ((2 ^ w : Nat) : Int) = 2 * (2 ^ (w-1) : Nat) := by rw [hpow]; push_cast; ring
        have hsz : (size : Int) ≤ ((2 ^ (w - 1) : Nat) : Int) := by exact_mod_cast hw
        rw [hpc] at hlo
        by_cases hneg : i.toInt + (size : Int) < 0
        · have : (i.toInt + (size:Int)) % ((2 ^ w : Nat) : Int) = i.toInt + size + (2^w : Nat) := by
            rw [← Int.add_emod_right]
            exact Int.emod_eq_of_lt (by omega) (by omega)
          rw [this, if_neg (by omega)]; omega
        · have : (i.toInt + (size:Int)) % ((2 ^ w : Nat) : Int) = i.toInt + size :=
            Int.emod_eq_of_lt (by omega) (by omega)
          rw [this, if_pos (by omega)]
      obtain ⟨j, hj, he⟩ := ih ((-(i + BitVec.ofNat w size).toInt).toNat) (by omega) _ rfl
      refine ⟨j, .step i j hi hj, ?_⟩
      rw [he, hadd, if_pos hi]
      split
      · simp
      · rw [← Int.add_emod_right]; exact (Int.emod_eq_of_lt (by omega) (by omega)).symm
    · exact ⟨i, .done i (by omega), by simp [hi]⟩

example : 0 < 100 ∧ 100 ≤ 2 ^ (8 - 1) ∧ ((-3 : BitVec 8)).toInt < 0 := by decide

/-- Finding: with a size that is a multiple of `2^w` (e.g. an `int8_t` index into 256 elements) a
negative index never leaves the loop. -/
theorem C04_width_diverges {w : Nat} (size : Nat) (hd : 2 ^ w ∣ size) (i : BitVec w)
    (hi : i.toInt < 0) : ¬ ∃ j, LoopExit size i j := by
  have hz : BitVec.ofNat w size = 0 := by
    obtain ⟨c, rfl⟩ := hd
    apply BitVec.eq_of_toNat_eq; simp
  rintro ⟨j, hj⟩
  induction hj with
  | done i h => omega
  | step i j _ _ ih => rw [hz] at ih; simp at ih; exact absurd hi (by omega)

example : (2 ^ 8 ∣ 256) ∧ ((-1 : BitVec 8)).toInt < 0 := by decide

/-- Finding: with `int8_t` and 200 elements, `v[-1]` reads element 87 instead of 199: the
property is false without `size ≤ 2^(w-1)`. -/
theorem C04_width_wrong_element :
    LoopExit 200 (-1 : BitVec 8) (87 : BitVec 8) ∧ (-1 : Int) % 200 = 199 := by
  refine ⟨?_, by decide⟩
  refine .step _ _ (by decide) (.step _ _ (by decide) (.step _ _ (by decide) ?_))
  have : (-1 : BitVec 8) + BitVec.ofNat 8 200 + BitVec.ofNat 8 200 + BitVec.ofNat 8 200 = 87 := by
    decide
  rw [this]
  exact .done _ (by decide)

/-! ## C03: flat and multi-dimensional indices -/

/-- An in-range multi-index has a flat index below the number of elements, and converting that flat
index back gives the same multi-index. -/
theorem C03_flat_then_mult (dims ids : List Nat) (h : InRange dims ids) :
    ∃ k, flatId dims (ids.map Int.ofNat) = .ok k ∧ k < dims.prod ∧ multIds dims k = .ok ids :=
  ⟨rowMajor dims ids, flatId_eq dims ids h, rowMajor_lt dims ids h, multIds_rowMajor dims ids h⟩

example : InRange [2, 3, 4] [1, 0, 3] := by
  refine .cons (by decide) (.cons (by decide) (.cons (by decide) .nil))

/-- Every flat index below the number of elements has a multi-index, which is in range, and
converting it back gives the same flat index. -/
theorem C03_mult_then_flat (dims : List Nat) (i : Nat) (h : i < dims.prod) :
    ∃ ids, multIds dims i = .ok ids ∧ InRange dims ids ∧
      flatId dims (ids.map Int.ofNat) = .ok i := by
  obtain ⟨ids, hr, he⟩ := rowMajor_surj dims i h
  exact ⟨ids, by rw [← he]; exact multIds_rowMajor dims ids hr, hr, by
    rw [flatId_eq dims ids hr, he]⟩

example : 23 < [2, 3, 4].prod := by decide

/-- Distinct in-range multi-indices have distinct flat indices. -/
theorem C03_injective (dims a b : List Nat) (ha : InRange dims a) (hb : InRange dims b)
    (h : flatId dims (a.map Int.ofNat) = flatId dims (b.map Int.ofNat)) : a = b := by
  obtain ⟨k, e1, -, m1⟩ := C03_flat_then_mult dims a ha
  obtain ⟨k', e2, -, m2⟩ := C03_flat_then_mult dims b hb
  rw [e1, e2] at h
  cases h
  rw [m1] at m2
  cases m2
  rfl

/-- Row-major: the flat index grows with the lexicographic order of multi-indices (the last
dimension varies fastest). -/
theorem C03_row_major (dims a b : List Nat) (ha : InRange dims a) (hb : InRange dims b)
    (hlex : List.Lex (· < ·) a b) {ka kb : Nat}
    (hka : flatId dims (a.map Int.ofNat) = .ok ka) (hkb : flatId dims (b.map Int.ofNat) = .ok kb) :
    ka < kb := by
  rw [flatId_eq dims a ha] at hka
  rw [flatId_eq dims b hb] at hkb
  cases hka; cases hkb
  exact rowMajor_lex dims a b ha hb hlex

example : InRange [2, 3] [0, 2] ∧ InRange [2, 3] [1, 0] ∧ List.Lex (· < ·) [0, 2] [1, 0] :=
  ⟨.cons (by decide) (.cons (by decide) .nil), .cons (by decide) (.cons (by decide) .nil),
    .rel (by decide)⟩

/-- Signed multi-indices: whatever the arguments, the call returns or aborts, and an accepted
multi-index is one whose coordinates are congruent to in-range ones. -/
theorem C03_signed (dims : List Nat) (is : List Int) :
    (flatId dims is).Safe ∧
    ∀ k, flatId dims is = .ok k → k < dims.prod ∧ ∃ ids, InRange dims ids ∧
      flatId dims (ids.map Int.ofNat) = .ok k ∧
      List.Forall₂ (fun (p : Int × Nat) (i : Nat) => (p.2 : Int) ∣ p.1 - i) (is.zip dims) ids := by
  have key := flatIdLoop_signed [] dims is 0
  simp only [List.nil_append, List.length_nil] at key
  refine ⟨key.1, fun k hk => ?_⟩
  obtain ⟨ids, hr, he, hd⟩ := key.2 k hk
  rw [Nat.zero_add] at he
  refine ⟨by rw [he]; exact rowMajor_lt dims ids hr, ids, hr, ?_, hd⟩
  rw [flatId_eq dims ids hr, he]

example : flatId [2, 3] [-1, 2] = .ok 5 := by
  simp [flatId, flatIdLoop, toIdxSigned_eq, pitch_eq]

/-! ## C23: `increment_index_list` enumerates all multi-indices -/

/-- `k` calls of `increment_index_list` starting from `ids`. -/
def incTimes (n : List Nat) : Nat → List Nat → Res (List Nat)
  | 0, ids => .ok ids
  | k + 1, ids => do incTimes n k (← incrementIndexList ids n)

/-- One call moves to the successor in row-major order (cyclically). -/
theorem C23_step (n ids : List Nat) (hn : n ≠ []) (h : InRange n ids) :
    ∃ ids', incrementIndexList ids n = .ok ids' ∧ InRange n ids' ∧
      ∀ k, flatId n (ids.map Int.ofNat) = .ok k →
        flatId n (ids'.map Int.ofNat) = .ok ((k + 1) % n.prod) := by
  obtain ⟨ids', h1, h2, h3⟩ := inc_spec n ids hn h
  refine ⟨ids', h1, h2, fun k hk => ?_⟩
  rw [flatId_eq n ids h] at hk
  cases hk
  rw [flatId_eq n ids' h2, h3]

example : InRange [2, 3] [1, 2] := .cons (by decide) (.cons (by decide) .nil)

theorem incTimes_rowMajor (n : List Nat) (hn : n ≠ []) (k : Nat) (ids : List Nat)
    (h : InRange n ids) :
    ∃ ids', incTimes n k ids = .ok ids' ∧ InRange n ids' ∧
      rowMajor n ids' = (rowMajor n ids + k) % n.prod := by
  induction k generalizing ids with
  | zero =>
    exact ⟨ids, rfl, h, by rw [Nat.add_zero, Nat.mod_eq_of_lt (rowMajor_lt n ids h)]⟩
  | succ k ih =>
    obtain ⟨i1, h1, h2, h3⟩ := inc_spec n ids hn h
    obtain ⟨i2, g1, g2, g3⟩ := ih i1 h2
    refine ⟨i2, by simp only [incTimes, h1, Res.ok_bind, g1], g2, ?_⟩
    rw [g3, h3, Nat.mod_add_mod]; congr 1; omega

/-- Starting from all zeros, the `k`-th call (for `k < prod`) yields the multi-index of flat index
`k`; hence every multi-index is visited exactly once, in row-major order, and after exactly `prod`
calls all zeros is reached again. -/
theorem C23_enumerates (n : List Nat) (hn : n ≠ []) (hpos : ∀ d ∈ n, 0 < d) (k : Nat) :
    ∃ ids, incTimes n k (List.replicate n.length 0) = .ok ids ∧ InRange n ids ∧
      multIds n (k % n.prod) = .ok ids := by
  have h0 : InRange n (List.replicate n.length 0) := inRange_zeros n hpos
  obtain ⟨ids, h1, h2, h3⟩ := incTimes_rowMajor n hn k _ h0
  rw [rowMajor_zeros, Nat.zero_add] at h3
  exact ⟨ids, h1, h2, by rw [← h3]; exact multIds_rowMajor n ids h2⟩

/-- Consequently each in-range multi-index is reached by exactly one number of calls below `prod`. -/
theorem C23_once (n : List Nat) (hn : n ≠ []) (hpos : ∀ d ∈ n, 0 < d) (ids : List Nat)
    (h : InRange n ids) :
    ∃ k, (k < n.prod ∧ incTimes n k (List.replicate n.length 0) = .ok ids) ∧
      ∀ k', k' < n.prod → incTimes n k' (List.replicate n.length 0) = .ok ids → k' = k := by
  obtain ⟨k, hk, hlt, hm⟩ := C03_flat_then_mult n ids h
  have uniq : ∀ j < n.prod, ∀ l, incTimes n j (List.replicate n.length 0) = .ok l →
      multIds n j = .ok l := by
    intro j hj l hl
    obtain ⟨l', e1, -, e2⟩ := C23_enumerates n hn hpos j
    rw [Nat.mod_eq_of_lt hj] at e2
    rw [e1] at hl; cases hl; exact e2
  refine ⟨k, ⟨hlt, ?_⟩, fun k' hk' he => ?_⟩
  · obtain ⟨l, e1, -, e2⟩ := C23_enumerates n hn hpos k
    rw [Nat.mod_eq_of_lt hlt, hm] at e2
    cases e2; exact e1
  · have e := uniq k' hk' ids he
    obtain ⟨l, f1, -, f3⟩ := C03_mult_then_flat n k' hk'
    rw [e] at f1; cases f1
    rw [hk] at f3; cases f3; rfl

example : incTimes [2, 3] 6 [0, 0] = .ok [0, 0] ∧ incTimes [2, 3] 4 [0, 0] = .ok [1, 1] := by
  decide

end Verif.Index
