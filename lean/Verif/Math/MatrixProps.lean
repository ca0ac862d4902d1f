import Verif.Math.Matrix
import Mathlib.Algebra.BigOperators.Ring.Finset
import Mathlib.Tactic.Ring
import Mathlib.Tactic.IntervalCases
import Mathlib.Tactic.LinearCombination
import Mathlib.Analysis.SpecialFunctions.Trigonometric.Basic
/-!
# C119: products of matrices and plane transforms
-/
namespace Verif.Matrices
open Verif Verif.Astro

section
variable {K : Type} [Ring K]

/-- Spec: an element of a matrix -/
def el (m : Img K) (i j : Nat) : K := (m.at i j).getD 0

theorem el_at {m : Img K} (hm : m.WF) {i j : Nat} (hi : i < m.nx) (hj : j < m.ny) : m.at i j = some (el m i j) := by
  obtain ⟨v, hv⟩ := at_isSome hm hi hj
  unfold el
  rw [hv]; rfl

theorem get_el {m : Img K} (hm : m.WF) {i j : Nat} (hi : i < m.nx) (hj : j < m.ny) : m.get i j = .ok (el m i j) := get_at (el_at hm hi hj)

/-- **C119** the product of matrices -/
theorem C119_mul (a b : Img K) (ha : a.WF) (hb : b.WF) (h : a.ny = b.nx) : ∃ r, mul a b = .ok r ∧ r.WF ∧ r.nx = a.nx ∧ r.ny = b.ny ∧
    ∀ i j, i < a.nx → j < b.ny → r.at i j = some (∑ k ∈ Finset.range a.ny, el a i k * el b k j) := by
  unfold mul
  rw [Res.check_pos h]
  simp only [Res.ok_bind]
  refine Exists.imp ?_ (for2_rule (nx := a.nx) (ny := a.ny) (body := fun i k (r : Img K) => (List.range b.ny).foldlM (fun r j => do
      let o ← r.get i j
      let x ← a.get i k
      let y ← b.get k j
      r.put i j (o + x * y)) r)
    (fun i k s => s.WF ∧ s.nx = a.nx ∧ s.ny = b.ny ∧ ∀ i' j', i' < a.nx → j' < b.ny →
      s.at i' j' = some (∑ k' ∈ Finset.range (if i' < i then a.ny else if i' = i then k else 0), el a i' k' * el b k' j'))
    (Img.fill a.nx b.ny 0) ⟨fill_wf _ _ _, rfl, rfl, fun i' j' hi hj => ?_⟩ ?_ ?_)
  · rintro r ⟨h1, h2, h3, h4, h5⟩
    refine ⟨h1, h2, h3, h4, fun i j hi hj => ?_⟩
    rw [h5 i j hi hj, if_pos hi]
  · rw [fill_at, if_pos ⟨hi, hj⟩]
    rcases Nat.eq_zero_or_pos i' with rfl | h0
    · simp
    · rw [if_neg (by omega), if_neg (by omega)]; simp
  · rintro i k s hi hk ⟨s1, s2, s3, s4⟩
    refine Exists.imp ?_ (foldlM_range (n := b.ny) (f := fun (r : Img K) j => do
      let o ← r.get i j
      let x ← a.get i k
      let y ← b.get k j
      r.put i j (o + x * y)) (fun j r => j ≤ b.ny ∧ r.WF ∧ r.nx = a.nx ∧ r.ny = b.ny ∧ ∀ i' j', i' < a.nx → j' < b.ny →
        r.at i' j' = some (∑ k' ∈ Finset.range (if i' < i then a.ny else if i' = i then (if j' < j then k + 1 else k) else 0), el a i' k' * el b k' j'))
      s ⟨Nat.zero_le _, s1, s2, s3, fun i' j' hi' hj' => by simpa using s4 i' j' hi' hj'⟩ ?_)
    · rintro r ⟨h0, -, r1, r2, r3, r4⟩
      refine ⟨h0, r1, r2, r3, fun i' j' hi' hj' => ?_⟩
      rw [r4 i' j' hi' hj', if_pos hj']
    · rintro j r hj ⟨-, r1, r2, r3, r4⟩
      have e := r4 i j hi hj
      rw [if_neg (lt_irrefl i), if_pos rfl, if_neg (lt_irrefl j)] at e
      obtain ⟨w, w1, w2, w3, w4, w5⟩ := put_spec r1 (x := i) (y := j) (by omega) (by omega) ((∑ k' ∈ Finset.range k, el a i k' * el b k' j) + el a i k * el b k j)
      refine ⟨w, ?_, hj, w2, w3.trans r2, w4.trans r3, fun i' j' hi' hj' => ?_⟩
      · simp only [get_at e, get_el ha hi hk, get_el hb (h ▸ hk : k < b.nx) hj, Res.ok_bind]
        exact w1
      · rw [w5]
        by_cases he : i' = i ∧ j' = j
        · obtain ⟨rfl, rfl⟩ := he
          rw [if_pos ⟨rfl, rfl⟩, if_neg (lt_irrefl _), if_pos rfl, if_pos (Nat.lt_succ_self _), Finset.sum_range_succ]
        · rw [if_neg he, r4 i' j' hi' hj']
          congr 3
          by_cases hii : i' = i
          · have : j' ≠ j := fun e => he ⟨hii, e⟩
            have : j' < j ↔ j' < j + 1 := by omega
            simp only [this]
          · simp [hii]
  · rintro i s hi ⟨s1, s2, s3, s4⟩
    refine ⟨s1, s2, s3, fun i' j' hi' hj' => ?_⟩
    rw [s4 i' j' hi' hj']
    congr 3
    by_cases h1 : i' < i
    · rw [if_pos h1, if_pos (by omega)]
    · by_cases h2 : i' = i
      · rw [if_neg h1, if_pos h2, if_pos (by omega)]
      · rw [if_neg h1, if_neg h2, if_neg (by omega)]
        split <;> rfl

/-- **C119** matrices of other dimensions are refused -/
theorem C119_mul_dims (a b : Img K) (h : a.ny ≠ b.nx) : mul a b = .abort := by
  unfold mul
  rw [Res.check_neg h]; rfl

theorem el_eq {m : Img K} {i j : Nat} {v : K} (h : m.at i j = some v) : el m i j = v := by unfold el; rw [h]; rfl

/-- **C119** the product is associative -/
theorem C119_assoc (a b c : Img K) (ha : a.WF) (hb : b.WF) (hc : c.WF) (h1 : a.ny = b.nx) (h2 : b.ny = c.nx) :
    ∃ r, (mul a b).bind (fun m => mul m c) = .ok r ∧ (mul b c).bind (fun m => mul a m) = .ok r := by
  obtain ⟨ab, p1, p2, p3, p4, p5⟩ := C119_mul a b ha hb h1
  obtain ⟨bc, q1, q2, q3, q4, q5⟩ := C119_mul b c hb hc h2
  obtain ⟨l, l1, l2, l3, l4, l5⟩ := C119_mul ab c p2 hc (p4.trans h2)
  obtain ⟨r, r1, r2, r3, r4, r5⟩ := C119_mul a bc ha q2 (h1.trans q3.symm)
  refine ⟨l, by rw [p1]; exact l1, ?_⟩
  rw [q1]
  refine r1.trans ?_
  congr 1
  refine img_ext r2 l2 (by rw [r3, l3, p3]) (by rw [r4, l4, q4]) fun i j hi hj => ?_
  rw [r3] at hi
  rw [r4] at hj
  rw [r5 i j hi hj, l5 i j (by omega) (by omega)]
  congr 1
  have e1 : ∀ k ∈ Finset.range a.ny, el a i k * el bc k j = ∑ t ∈ Finset.range b.ny, el a i k * el b k t * el c t j := by
    intro k hk
    rw [el_eq (q5 k j (by rw [← h1]; exact Finset.mem_range.1 hk) (by omega)), Finset.mul_sum]
    exact Finset.sum_congr rfl fun t _ => (mul_assoc _ _ _).symm
  have e2 : ∀ t ∈ Finset.range ab.ny, el ab i t * el c t j = ∑ k ∈ Finset.range a.ny, el a i k * el b k t * el c t j := by
    intro t ht
    rw [el_eq (p5 i t hi (by rw [← p4]; exact Finset.mem_range.1 ht)), Finset.sum_mul]
  rw [Finset.sum_congr rfl e1, Finset.sum_congr rfl e2, p4, Finset.sum_comm]

/-- **C119** so are vectors of other dimensions -/
theorem C119_vector_dims (a : Img K) (v : List K) : (a.ny ≠ v.length → mulVec a v = .abort) ∧ (v.length ≠ a.nx → vecMul v a = .abort) := by
  constructor
  · intro h
    unfold mulVec
    rw [Res.check_neg h]; rfl
  · intro h
    unfold vecMul
    rw [Res.check_neg h]; rfl

/-! ### Transposition and diagonal -/

/-- **C119** `transpose` exchanges rows and columns -/
theorem C119_transpose (v : Img K) (hv : v.WF) : ∃ r, transpose v = .ok r ∧ r.WF ∧ r.nx = v.ny ∧ r.ny = v.nx ∧
    ∀ i j, r.at i j = v.at j i := by
  have hl : v.px.length = v.nx * v.ny := hv
  have key : (List.range v.px.length).mapM (fun i => Res.rd v.px ((i % v.nx) * v.ny + i / v.nx)) =
      .ok ((List.range v.px.length).map fun i => v.px.getD ((i % v.nx) * v.ny + i / v.nx) 0) := by
    have : ∀ l : List Nat, (∀ i ∈ l, i < v.px.length) → l.mapM (fun i => Res.rd v.px ((i % v.nx) * v.ny + i / v.nx)) = .ok (l.map fun i => v.px.getD ((i % v.nx) * v.ny + i / v.nx) 0) := by
      intro l
      induction l with
      | nil => intro _; rfl
      | cons i l ih =>
        intro hi
        have hi0 : i < v.nx * v.ny := by rw [← hl]; exact hi i (by simp)
        have hx : 0 < v.nx := Nat.pos_of_ne_zero fun e => by rw [e] at hi0; omega
        have hlt : (i % v.nx) * v.ny + i / v.nx < v.px.length := by
          rw [hl]; exact flat_lt (Nat.mod_lt _ hx) ((Nat.div_lt_iff_lt_mul hx).2 (by rw [Nat.mul_comm]; exact hi0))
        have e : Res.rd v.px ((i % v.nx) * v.ny + i / v.nx) = .ok (v.px.getD ((i % v.nx) * v.ny + i / v.nx) 0) := by
          rw [Res.rd_eq_ok, List.getD_eq_getElem?_getD, List.getElem?_eq_getElem hlt]; rfl
        rw [List.mapM_cons, e]
        simp only [Res.ok_bind, ih fun j hj => hi j (by simp [hj])]
        rfl
    exact this _ fun i hi => List.mem_range.1 hi
  unfold transpose
  rw [key]
  refine ⟨_, rfl, ?_, rfl, rfl, ?_⟩
  · unfold Img.WF
    simp only [List.length_map, List.length_range, hl, Nat.mul_comm]
  · intro i j
    unfold Img.at
    by_cases h : i < v.ny ∧ j < v.nx
    · rw [if_pos h, if_pos ⟨h.2, h.1⟩]
      simp only
      have hlt : i * v.nx + j < v.px.length := by rw [hl, Nat.mul_comm v.nx]; exact flat_lt h.1 h.2
      rw [List.getElem?_map, List.getElem?_range hlt, Option.map_some, Nat.mul_comm i, Nat.mul_add_mod, Nat.mod_eq_of_lt h.2,
        Nat.mul_add_div (by omega), Nat.div_eq_of_lt h.2, Nat.add_zero]
      rw [List.getD_eq_getElem?_getD, List.getElem?_eq_getElem (by rw [hl]; exact flat_lt h.2 h.1)]
      rfl
    · rw [if_neg h, if_neg (fun h' => h ⟨h'.2, h'.1⟩)]

/-- **C119** transposing twice is the identity -/
theorem C119_transpose_twice (v : Img K) (hv : v.WF) : (transpose v).bind transpose = .ok v := by
  obtain ⟨r, r1, r2, r3, r4, r5⟩ := C119_transpose v hv
  obtain ⟨s, s1, s2, s3, s4, s5⟩ := C119_transpose r r2
  rw [r1]
  refine s1.trans ?_
  congr 1
  refine img_ext s2 hv (by rw [s3, r4]) (by rw [s4, r3]) fun i j _ _ => ?_
  rw [s5, r5]

/-- **C119** the diagonal -/
theorem C119_diagonal (v : Img K) (hv : v.WF) (h : v.nx = v.ny) : diagonal v = .ok ((List.range v.nx).map fun i => el v i i) := by
  unfold diagonal
  rw [Res.check_pos h]
  have : ∀ l : List Nat, (∀ i ∈ l, i < v.nx) → l.mapM (fun i => v.get i i) = .ok (l.map fun i => el v i i) := by
    intro l
    induction l with
    | nil => intro _; rfl
    | cons i l ih =>
      intro hi
      have h0 := hi i (by simp)
      rw [List.mapM_cons, get_el hv h0 (h ▸ h0)]
      simp only [Res.ok_bind, ih fun j hj => hi j (by simp [hj])]
      rfl
  exact this _ fun i hi => List.mem_range.1 hi

theorem diag_fold (n : Nat) (f : Nat → Res K) (g : Nat → K) (hf : ∀ i < n, f i = .ok (g i)) : ∃ r, (List.range n).foldlM (fun (m : Img K) i => do
    let x ← f i
    m.put i i x) (Img.fill n n 0) = .ok r ∧ r.WF ∧ r.nx = n ∧ r.ny = n ∧ ∀ i j, i < n → j < n → r.at i j = some (if i = j then g i else 0) := by
  refine Exists.imp ?_ (foldlM_range (n := n) (f := fun (m : Img K) i => do
    let x ← f i
    m.put i i x) (fun t r => t ≤ n ∧ r.WF ∧ r.nx = n ∧ r.ny = n ∧ ∀ i j, i < n → j < n → r.at i j = some (if i = j ∧ i < t then g i else 0))
    (Img.fill n n 0) ⟨Nat.zero_le _, fill_wf _ _ _, rfl, rfl, fun i j hi hj => by rw [fill_at, if_pos ⟨hi, hj⟩, if_neg (by omega)]⟩ ?_)
  · rintro r ⟨h0, -, h1, h2, h3, h4⟩
    refine ⟨h0, h1, h2, h3, fun i j hi hj => ?_⟩
    rw [h4 i j hi hj]
    simp [hi]
  · rintro t r ht ⟨-, h1, h2, h3, h4⟩
    obtain ⟨w, w1, w2, w3, w4, w5⟩ := put_spec h1 (x := t) (y := t) (by omega) (by omega) (g t)
    refine ⟨w, by rw [hf t ht]; exact w1, ht, w2, w3.trans h2, w4.trans h3, fun i j hi hj => ?_⟩
    rw [w5]
    by_cases he : i = t ∧ j = t
    · obtain ⟨rfl, rfl⟩ := he
      rw [if_pos ⟨rfl, rfl⟩, if_pos (by omega)]
    · rw [if_neg he, h4 i j hi hj]
      have : (i = j ∧ i < t) ↔ (i = j ∧ i < t + 1) := by omega
      simp only [this]

/-- **C119** `as_diagonal` and `make_identity` -/
theorem C119_as_diagonal (v : List K) : ∃ r, asDiagonal v = .ok r ∧ r.WF ∧ r.nx = v.length ∧ r.ny = v.length ∧
    ∀ i j, i < v.length → j < v.length → r.at i j = some (if i = j then v.getD i 0 else 0) := by
  exact diag_fold v.length _ (fun i => v.getD i 0) fun i hi => by
    rw [Res.rd_eq_ok, List.getD_eq_getElem?_getD, List.getElem?_eq_getElem hi]; rfl

theorem C119_identity (n : Nat) : ∃ r, makeIdentity (K := K) n = .ok r ∧ r.WF ∧ r.nx = n ∧ r.ny = n ∧
    (∀ i j, i < n → j < n → r.at i j = some (if i = j then 1 else 0)) ∧
    ∀ a : Img K, a.WF → (a.ny = n → mul a r = .ok a) ∧ (a.nx = n → mul r a = .ok a) := by
  obtain ⟨r, r1, r2, r3, r4, r5⟩ := diag_fold (K := K) n (fun _ => .ok 1) (fun _ => 1) fun _ _ => rfl
  refine ⟨r, r1, r2, r3, r4, r5, fun a ha => ⟨fun h => ?_, fun h => ?_⟩⟩
  · obtain ⟨s, s1, s2, s3, s4, s5⟩ := C119_mul a r ha r2 (h.trans r3.symm)
    rw [s1]
    congr 1
    refine img_ext s2 ha s3 (s4.trans (r4.trans h.symm)) fun i j hi hj => ?_
    rw [s3] at hi
    have hj : j < n := by rw [s4, r4] at hj; exact hj
    rw [s5 i j hi (by omega), el_at ha hi (by omega)]
    congr 1
    rw [Finset.sum_eq_single j]
    · rw [el_eq (r5 j j hj hj), if_pos rfl, mul_one]
    · intro k hk hne
      rw [el_eq (r5 k j (by rw [← h]; exact Finset.mem_range.1 hk) hj), if_neg hne, mul_zero]
    · intro hk
      exact absurd (Finset.mem_range.2 (by omega)) hk
  · obtain ⟨s, s1, s2, s3, s4, s5⟩ := C119_mul r a r2 ha (r4.trans h.symm)
    rw [s1]
    congr 1
    refine img_ext s2 ha (s3.trans (r3.trans h.symm)) s4 fun i j hi hj => ?_
    have hi : i < n := by rw [s3, r3] at hi; exact hi
    rw [s4] at hj
    rw [s5 i j (by omega) hj, el_at ha (by omega) hj]
    congr 1
    rw [Finset.sum_eq_single i]
    · rw [el_eq (r5 i i hi hi), if_pos rfl, one_mul]
    · intro k hk hne
      rw [el_eq (r5 i k hi (by rw [← r4]; exact Finset.mem_range.1 hk)), if_neg (Ne.symm hne), zero_mul]
    · intro hk
      exact absurd (Finset.mem_range.2 (by omega)) hk

/-! ### Vectors -/

theorem vec_fold (n m : Nat) (f : Nat → Nat → Res K × Res K) (g : Nat → Nat → K × K)
    (hf : ∀ i k, i < n → k < m → (f i k).1 = .ok (g i k).1 ∧ (f i k).2 = .ok (g i k).2) :
    (for2 n m (fun i k r => do
      let o ← Res.rd r i
      let x ← (f i k).1
      let y ← (f i k).2
      vput r i (o + x * y)) (List.replicate n 0) = .ok ((List.range n).map fun i => ∑ k ∈ Finset.range m, (g i k).1 * (g i k).2)) ∧
    (for2 m n (fun k i r => do
      let o ← Res.rd r i
      let x ← (f i k).1
      let y ← (f i k).2
      vput r i (o + x * y)) (List.replicate n 0) = .ok ((List.range n).map fun i => ∑ k ∈ Finset.range m, (g i k).1 * (g i k).2)) := by
  have stepOk : ∀ (r : List K) (i k : Nat) (o : K), i < n → k < m → r.length = n → r[i]? = some o →
      (do
        let o ← Res.rd r i
        let x ← (f i k).1
        let y ← (f i k).2
        vput r i (o + x * y) : Res (List K)) = .ok (r.set i (o + (g i k).1 * (g i k).2)) := by
    intro r i k o hi hk hl ho
    rw [Res.rd_eq_ok.2 ho]
    simp only [Res.ok_bind, (hf i k hi hk).1, (hf i k hi hk).2]
    unfold vput
    rw [if_pos (by omega)]
  constructor
  · obtain ⟨r, h0, h1, h2⟩ := for2_rule (nx := n) (ny := m) (body := fun i k (r : List K) => do
      let o ← Res.rd r i
      let x ← (f i k).1
      let y ← (f i k).2
      vput r i (o + x * y))
      (fun i k s => s.length = n ∧ ∀ i' < n, s[i']? = some (∑ k' ∈ Finset.range (if i' < i then m else if i' = i then k else 0), (g i' k').1 * (g i' k').2))
      (List.replicate n 0) ⟨by simp, fun i' hi' => by
        rw [List.getElem?_replicate, if_pos hi']
        rcases Nat.eq_zero_or_pos i' with rfl | h0
        · simp
        · rw [if_neg (by omega), if_neg (by omega)]; simp⟩ (by
        rintro i k s hi hk ⟨s1, s2⟩
        have e := s2 i hi
        rw [if_neg (lt_irrefl i), if_pos rfl] at e
        refine ⟨_, stepOk s i k _ hi hk s1 e, by simp [s1], fun i' hi' => ?_⟩
        rw [List.getElem?_set]
        by_cases he : i = i'
        · subst he
          rw [if_pos rfl, if_pos (by omega), if_neg (lt_irrefl i), if_pos rfl, Finset.sum_range_succ]
        · rw [if_neg he, s2 i' hi', if_neg (Ne.symm he), if_neg (Ne.symm he)]) (by
        rintro i s hi ⟨s1, s2⟩
        refine ⟨s1, fun i' hi' => ?_⟩
        rw [s2 i' hi']
        congr 3
        by_cases h1 : i' < i
        · rw [if_pos h1, if_pos (by omega)]
        · by_cases h2 : i' = i
          · rw [if_neg h1, if_pos h2, if_pos (by omega)]
          · rw [if_neg h1, if_neg h2, if_neg (by omega)]
            split <;> rfl)
    rw [h0]
    congr 1
    apply List.ext_getElem?
    intro i
    by_cases hi : i < n
    · rw [h2 i hi, if_pos hi, List.getElem?_map, List.getElem?_range hi]; rfl
    · rw [List.getElem?_eq_none (by omega), List.getElem?_eq_none (by simp; omega)]
  · obtain ⟨r, h0, h1, h2⟩ := for2_rule (nx := m) (ny := n) (body := fun k i (r : List K) => do
      let o ← Res.rd r i
      let x ← (f i k).1
      let y ← (f i k).2
      vput r i (o + x * y))
      (fun k i s => s.length = n ∧ ∀ i' < n, s[i']? = some (∑ k' ∈ Finset.range (if i' < i then k + 1 else k), (g i' k').1 * (g i' k').2))
      (List.replicate n 0) ⟨by simp, fun i' hi' => by
        rw [List.getElem?_replicate, if_pos hi', if_neg (by omega)]; simp⟩ (by
        rintro k i s hk hi ⟨s1, s2⟩
        have e := s2 i hi
        rw [if_neg (lt_irrefl i)] at e
        refine ⟨_, stepOk s i k _ hi hk s1 e, by simp [s1], fun i' hi' => ?_⟩
        rw [List.getElem?_set]
        by_cases he : i = i'
        · subst he
          rw [if_pos rfl, if_pos (by omega), if_pos (by omega), Finset.sum_range_succ]
        · rw [if_neg he, s2 i' hi']
          have : i' < i ↔ i' < i + 1 := by omega
          simp only [this]) (by
        rintro k s hk ⟨s1, s2⟩
        refine ⟨s1, fun i' hi' => ?_⟩
        rw [s2 i' hi', if_pos hi', if_neg (by omega)])
    rw [h0]
    congr 1
    apply List.ext_getElem?
    intro i
    by_cases hi : i < n
    · rw [h2 i hi, if_neg (by omega), List.getElem?_map, List.getElem?_range hi]; rfl
    · rw [List.getElem?_eq_none (by omega), List.getElem?_eq_none (by simp; omega)]

/-- **C119** products of a matrix and a vector, on both sides -/
theorem C119_vector (a : Img K) (ha : a.WF) (v : List K) :
    (a.ny = v.length → mulVec a v = .ok ((List.range a.nx).map fun i => ∑ k ∈ Finset.range a.ny, el a i k * v.getD k 0)) ∧
    (v.length = a.nx → vecMul v a = .ok ((List.range a.ny).map fun i => ∑ k ∈ Finset.range a.nx, v.getD k 0 * el a k i)) := by
  have hv : ∀ k < v.length, Res.rd v k = .ok (v.getD k 0) := by
    intro k hk
    rw [Res.rd_eq_ok, List.getD_eq_getElem?_getD, List.getElem?_eq_getElem hk]; rfl
  constructor
  · intro h
    unfold mulVec
    rw [Res.check_pos h]
    exact (vec_fold a.nx a.ny (fun i k => (a.get i k, Res.rd v k)) (fun i k => (el a i k, v.getD k 0))
      fun i k hi hk => ⟨get_el ha hi hk, hv k (by omega)⟩).1
  · intro h
    unfold vecMul
    rw [Res.check_pos h]
    exact (vec_fold a.ny a.nx (fun i k => (Res.rd v k, a.get k i)) (fun i k => (v.getD k 0, el a k i))
      fun i k hi hk => ⟨hv k (by omega), get_el ha hk hi⟩).2

end

/-! ### Plane transforms -/
section
variable {K : Type} [CommRing K]

/-- **C119** the transpose of a product is the product of the transposes in the other order -/
theorem C119_transpose_mul (a b : Img K) (ha : a.WF) (hb : b.WF) (h : a.ny = b.nx) :
    ∃ r, (mul a b).bind transpose = .ok r ∧ (transpose b).bind (fun tb => (transpose a).bind fun ta => mul tb ta) = .ok r := by
  obtain ⟨m, m1, m2, m3, m4, m5⟩ := C119_mul a b ha hb h
  obtain ⟨r, r1, r2, r3, r4, r5⟩ := C119_transpose m m2
  obtain ⟨ta, a1, a2, a3, a4, a5⟩ := C119_transpose a ha
  obtain ⟨tb, b1, b2, b3, b4, b5⟩ := C119_transpose b hb
  obtain ⟨q, q1, q2, q3, q4, q5⟩ := C119_mul tb ta b2 a2 (by rw [b4, a3, h])
  refine ⟨r, by rw [m1]; exact r1, ?_⟩
  rw [b1, a1]
  refine q1.trans ?_
  congr 1
  refine img_ext q2 r2 (by rw [q3, r3, m4, b3]) (by rw [q4, r4, m3, a4]) fun i j hi hj => ?_
  rw [q3] at hi
  rw [q4] at hj
  rw [q5 i j hi hj, r5, m5 j i (by omega) (by omega), b4, h]
  congr 1
  refine Finset.sum_congr rfl fun k _ => ?_
  unfold el
  rw [a5, b5, mul_comm]

theorem three (a b c d e f g h i : K) (v : List K) (hv : v.length = 3) :
    mulVec ⟨3, 3, [a, b, c, d, e, f, g, h, i]⟩ v = .ok [a * v.getD 0 0 + b * v.getD 1 0 + c * v.getD 2 0, d * v.getD 0 0 + e * v.getD 1 0 + f * v.getD 2 0,
      g * v.getD 0 0 + h * v.getD 1 0 + i * v.getD 2 0] := by
  rw [(C119_vector ⟨3, 3, [a, b, c, d, e, f, g, h, i]⟩ rfl v).1 hv.symm]
  simp [List.range_succ, Finset.sum_range_succ, el, Img.at]

/-- the product of two matrices of size 3 -/
theorem mul3 (a b c d e f g h i a' b' c' d' e' f' g' h' i' : K) :
    mul ⟨3, 3, [a, b, c, d, e, f, g, h, i]⟩ ⟨3, 3, [a', b', c', d', e', f', g', h', i']⟩ =
      .ok ⟨3, 3, [a * a' + b * d' + c * g', a * b' + b * e' + c * h', a * c' + b * f' + c * i', d * a' + e * d' + f * g', d * b' + e * e' + f * h', d * c' + e * f' + f * i',
        g * a' + h * d' + i * g', g * b' + h * e' + i * h', g * c' + h * f' + i * i']⟩ := by
  obtain ⟨r, r1, r2, r3, r4, r5⟩ := C119_mul (K := K) ⟨3, 3, [a, b, c, d, e, f, g, h, i]⟩ ⟨3, 3, [a', b', c', d', e', f', g', h', i']⟩ rfl rfl rfl
  rw [r1]
  obtain ⟨nx, ny, px⟩ := r
  simp only at r3 r4
  subst r3 r4
  have hl : px.length = 9 := r2
  have key : ∀ x y, x < 3 → y < 3 → px[x * 3 + y]? = some (∑ k ∈ Finset.range 3, el ⟨3, 3, [a, b, c, d, e, f, g, h, i]⟩ x k * el ⟨3, 3, [a', b', c', d', e', f', g', h', i']⟩ k y) := by
    intro x y hx hy
    have := r5 x y hx hy
    unfold Img.at at this
    rw [if_pos ⟨hx, hy⟩] at this
    exact this
  clear r5 r1 r2
  match px, hl with
  | [p0, p1, p2, p3, p4, p5, p6, p7, p8], _ =>
    have k0 := key 0 0 (by decide) (by decide)
    have k1 := key 0 1 (by decide) (by decide)
    have k2 := key 0 2 (by decide) (by decide)
    have k3 := key 1 0 (by decide) (by decide)
    have k4 := key 1 1 (by decide) (by decide)
    have k5 := key 1 2 (by decide) (by decide)
    have k6 := key 2 0 (by decide) (by decide)
    have k7 := key 2 1 (by decide) (by decide)
    have k8 := key 2 2 (by decide) (by decide)
    simp [Finset.sum_range_succ, el, Img.at] at k0 k1 k2 k3 k4 k5 k6 k7 k8
    rw [k0, k1, k2, k3, k4, k5, k6, k7, k8]

theorem tr3 (a b c d e f g h i : K) : transpose ⟨3, 3, [a, b, c, d, e, f, g, h, i]⟩ = .ok ⟨3, 3, [a, d, g, b, e, h, c, f, i]⟩ := by
  simp [transpose, List.range_succ, Res.rd, List.mapM_cons, Res.pure_def]

theorem scale_eq (sx sy : K) : makeScale sx sy = .ok ⟨3, 3, [sx, 0, 0, 0, sy, 0, 0, 0, 1]⟩ := rfl
theorem translation_eq (tx ty : K) : makeTranslation tx ty = .ok ⟨3, 3, [1, 0, tx, 0, 1, ty, 0, 0, 1]⟩ := rfl
theorem rotation_eq (ca sa : K) : makeRotation ca sa = .ok ⟨3, 3, [ca, -sa, 0, sa, ca, 0, 0, 0, 1]⟩ := rfl

theorem bnd {α β : Type} (x : α) (f : α → Res β) : (Res.ok x).bind f = f x := rfl

/-- **C119** the matrices of plane transforms act on the points `(x, y, 1)` as a scaling of each axis, a translation, and the rotation by the angle
(counter-clockwise) -/
theorem C119_action (x y sx sy tx ty ca sa : K) :
    (makeScale sx sy).bind (fun m => mulVec m [x, y, 1]) = .ok [sx * x, sy * y, 1] ∧
    (makeTranslation tx ty).bind (fun m => mulVec m [x, y, 1]) = .ok [x + tx, y + ty, 1] ∧
    (makeRotation ca sa).bind (fun m => mulVec m [x, y, 1]) = .ok [ca * x - sa * y, sa * x + ca * y, 1] := by
  refine ⟨?_, ?_, ?_⟩
  · rw [scale_eq, bnd, three _ _ _ _ _ _ _ _ _ _ rfl]
    simp
  · rw [translation_eq, bnd, three _ _ _ _ _ _ _ _ _ _ rfl]
    simp
  · rw [rotation_eq, bnd, three _ _ _ _ _ _ _ _ _ _ rfl]
    simp; ring

/-- Spec: the composition of two constructions -/
def compose (a b : Res (Img K)) : Res (Img K) := a.bind fun m => b.bind fun n => mul m n

/-- **C119** scalings compose by products and translations by sums -/
theorem C119_compose (sx sy sx' sy' tx ty tx' ty' : K) :
    compose (makeScale sx sy) (makeScale sx' sy') = makeScale (sx * sx') (sy * sy') ∧
    compose (makeTranslation tx ty) (makeTranslation tx' ty') = makeTranslation (tx + tx') (ty + ty') := by
  constructor
  · unfold compose
    rw [scale_eq, scale_eq, scale_eq, bnd, bnd, mul3]
    simp
  · unfold compose
    rw [translation_eq, translation_eq, translation_eq, bnd, bnd, mul3]
    simp; constructor <;> ring

end

/-- **C119** rotations compose by sums of angles; the transpose of a rotation is the rotation by the opposite angle -/
theorem C119_rotation (a b : ℝ) : compose (makeRotation (Real.cos a) (Real.sin a)) (makeRotation (Real.cos b) (Real.sin b)) =
    makeRotation (Real.cos (a + b)) (Real.sin (a + b)) ∧
    (makeRotation (Real.cos a) (Real.sin a)).bind transpose = makeRotation (Real.cos (-a)) (Real.sin (-a)) := by
  constructor
  · unfold compose
    rw [rotation_eq, rotation_eq, rotation_eq, bnd, bnd, mul3, Real.cos_add, Real.sin_add]
    simp
    ring_nf
    exact ⟨trivial, trivial⟩
  · rw [rotation_eq, rotation_eq, Real.cos_neg, Real.sin_neg, neg_neg, bnd, tr3]

/-- the product of a matrix of 2 by 3 and one of 3 by 1, refused in the other order -/
example : mul (K := ℤ) ⟨2, 3, [1, 2, 3, 4, 5, 6]⟩ ⟨3, 1, [1, 0, -1]⟩ = .ok ⟨2, 1, [-2, -2]⟩ := by decide
example : mul (K := ℤ) ⟨3, 1, [1, 0, -1]⟩ ⟨2, 3, [1, 2, 3, 4, 5, 6]⟩ = .abort := by decide
example : transpose (K := ℤ) ⟨2, 3, [1, 2, 3, 4, 5, 6]⟩ = .ok ⟨3, 2, [1, 4, 2, 5, 3, 6]⟩ := by decide

end Verif.Matrices
