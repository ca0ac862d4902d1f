import Verif.Math.Chol
import Verif.Math.LULemmas
/-!
# Helper lemmas on the loops of the Cholesky decomposition
-/
namespace Verif.Mat
open Verif

variable {n : Nat} {K : Type} [Field K] [LinearOrder K] [IsStrictOrderedRing K]

omit [LinearOrder K] [IsStrictOrderedRing K] in
theorem fold_add (f : Fin n → K) (l : List (Fin n)) (d : K) : l.foldl (fun s k => s + f k) d = d + (l.map f).sum := by
  induction l generalizing d with
  | nil => simp
  | cons a l ih => rw [List.foldl_cons, ih]; simp [add_assoc]

omit [LinearOrder K] [IsStrictOrderedRing K] in
theorem sum_below (f : Fin n → K) (j : Fin n) : ((below j).map f).sum = ∑ k ∈ Finset.univ.filter (· < j), f k := by
  rw [← List.sum_toFinset _ (nodup_below j)]
  refine Finset.sum_congr ?_ fun _ _ => rfl
  ext i
  simp [mem_below]

omit [LinearOrder K] [IsStrictOrderedRing K] in
theorem sum_above (f : Fin n → K) (j : Fin n) : ((above j).map f).sum = ∑ k ∈ Finset.univ.filter (j < ·), f k := by
  rw [← List.sum_toFinset _ (nodup_above j)]
  refine Finset.sum_congr ?_ fun _ _ => rfl
  ext i
  simp [mem_above]

omit [LinearOrder K] [IsStrictOrderedRing K] in
theorem sum_le (f : Fin n → K) (j : Fin n) :
    ∑ k ∈ Finset.univ.filter (· ≤ j), f k = (∑ k ∈ Finset.univ.filter (· < j), f k) + f j := by
  have : Finset.univ.filter (· ≤ j) = insert j (Finset.univ.filter (· < j)) := by
    ext k; simp [le_iff_eq_or_lt]
  rw [this, Finset.sum_insert (by simp), add_comm]

omit [IsStrictOrderedRing K] in
theorem cholEntry_eq (sq : K → K) (l : M n K) (i j : Fin n) :
    cholEntry sq l i j =
      if i = j then
        if l i i - ∑ k ∈ Finset.univ.filter (· < i), l i k * l i k ≤ 0 then none
        else some (upd l i i (sq (l i i - ∑ k ∈ Finset.univ.filter (· < i), l i k * l i k)))
      else some (upd l i j ((l i j - ∑ k ∈ Finset.univ.filter (· < j), l i k * l j k) / l j j)) := by
  unfold cholEntry
  have e : (below j).foldl (fun s k => s + l i k * l j k) 0 = ∑ k ∈ Finset.univ.filter (· < j), l i k * l j k := by
    rw [fold_add (fun k => l i k * l j k), zero_add, sum_below]
  simp only [e]
  by_cases h : i = j
  · subst h; simp
  · simp [h]

/-- a loop over `range(i+1)` -/
theorem foldl_upto {σ : Type} (i : Fin n) (f : σ → Fin n → σ) (Inv : Nat → σ → Prop) (s : σ) (h0 : Inv 0 s)
    (h : ∀ (k : Fin n) s, k ≤ i → Inv k s → Inv (k + 1) (f s k)) : Inv (i + 1) ((upto i).foldl f s) := by
  unfold upto
  rw [List.foldl_filter]
  have := foldl_up (fun s k => if decide (k ≤ i) = true then f s k else s) (fun m s => Inv (min m (i + 1)) s) s (by simpa using h0) (by
    intro k s hk
    by_cases hki : k ≤ i
    · have hn : (k : Nat) ≤ i := hki
      rw [min_eq_left (by omega)] at hk
      rw [min_eq_left (by omega)]
      simp only [hki, decide_true, if_true]
      exact h k s hki hk
    · have hn : ¬ (k : Nat) ≤ i := hki
      rw [min_eq_right (by omega)] at hk
      rw [min_eq_right (by omega)]
      simp only [hki, decide_false, Bool.false_eq_true, if_false]
      exact hk)
  rwa [min_eq_right (by have := i.2; omega)] at this

omit [IsStrictOrderedRing K] in
theorem zeroAbove_apply (l : M n K) (i r c : Fin n) :
    ((above i).foldl (fun l j => upd l i j 0) l) r c = if r = i ∧ i < c then 0 else l r c := by
  have : ∀ (L : List (Fin n)) (l : M n K), (L.foldl (fun l j => upd l i j 0) l) r c = if r = i ∧ c ∈ L then 0 else l r c := by
    intro L
    induction L with
    | nil => intro l; simp
    | cons b L ih =>
      intro l
      rw [List.foldl_cons, ih]
      by_cases hr : r = i
      · by_cases hc : c ∈ L
        · simp [hr, hc]
        · by_cases hb : c = b
          · simp [hr, hb, upd]
          · simp [hr, hb, hc, upd]
      · simp [hr, upd]
  rw [this]
  simp only [mem_above]

omit [IsStrictOrderedRing K] in
theorem fwdStep_apply (l : M n K) (x : Fin n → K) (k c : Fin n) :
    (let x := (below k).foldl (fun x i => vset x k (x k - x i * l k i)) x
     vset x k (x k / l k k)) c = if c = k then (x k - ∑ i ∈ Finset.univ.filter (· < k), x i * l k i) / l k k else x c := by
  simp only
  rw [fold_sub (l k) k (below k) _ (by simp [mem_below]), sum_below]
  by_cases h : c = k
  · simp [vset, h]
  · simp [vset, h]

omit [IsStrictOrderedRing K] in
theorem bwdStep_apply (l : M n K) (x : Fin n → K) (k c : Fin n) :
    (let x := (above k).foldl (fun x i => vset x k (x k - x i * l i k)) x
     vset x k (x k / l k k)) c = if c = k then (x k - ∑ i ∈ Finset.univ.filter (k < ·), x i * l i k) / l k k else x c := by
  simp only
  rw [fold_sub (fun i => l i k) k (above k) _ (by simp [mem_above]), sum_above]
  by_cases h : c = k
  · simp [vset, h]
  · simp [vset, h]

omit [IsStrictOrderedRing K] in
/-- `substitute_forward` solves `L y = x`, reading the lower triangle only -/
theorem substForward_spec (l : M n K) (h0 : ∀ i, l i i ≠ 0) (x : Fin n → K) (i : Fin n) :
    ∑ t ∈ Finset.univ.filter (· ≤ i), l i t * substForward l x t = x i := by
  have := foldl_up (fun x k =>
      let x := (below k).foldl (fun x i => vset x k (x k - x i * l k i)) x
      vset x k (x k / l k k))
    (fun k y => (∀ i : Fin n, k ≤ i → y i = x i) ∧
      ∀ i : Fin n, (i : Nat) < k → ∑ t ∈ Finset.univ.filter (· ≤ i), l i t * y t = x i) x
    ⟨fun _ _ => rfl, fun _ h => absurd h (by omega)⟩ (by
      rintro k y ⟨h1, h2⟩
      refine ⟨fun i hi => ?_, fun i hi => ?_⟩
      · rw [fwdStep_apply, if_neg (by rintro rfl; omega)]
        exact h1 i (by omega)
      · by_cases e : i = k
        · subst e
          rw [sum_le, fwdStep_apply, if_pos rfl]
          have : ∑ t ∈ Finset.univ.filter (· < i), l i t *
              (let x := (below i).foldl (fun x j => vset x i (x i - x j * l i j)) y
               vset x i (x i / l i i)) t = ∑ t ∈ Finset.univ.filter (· < i), y t * l i t := by
            refine Finset.sum_congr rfl fun t ht => ?_
            rw [fwdStep_apply, if_neg (ne_of_lt (by simpa using ht)), mul_comm]
          rw [this, mul_div_cancel₀ _ (h0 i), h1 i (by omega)]
          ring
        · have hki : (i : Nat) ≠ k := fun h => e (Fin.ext h)
          rw [← h2 i (by omega)]
          refine Finset.sum_congr rfl fun t ht => ?_
          have ht : t ≤ i := by simpa using ht
          rw [fwdStep_apply, if_neg (by rintro rfl; rw [Fin.le_def] at ht; omega)])
  exact this.2 i i.2

omit [IsStrictOrderedRing K] in
/-- `substitute_backward` solves `Lᵀ y = x`, reading the lower triangle only -/
theorem substBackward_spec (l : M n K) (h0 : ∀ i, l i i ≠ 0) (x : Fin n → K) (i : Fin n) :
    l i i * substBackward l x i + ∑ t ∈ Finset.univ.filter (i < ·), l t i * substBackward l x t = x i := by
  have := foldl_down (fun x k =>
      let x := (above k).foldl (fun x i => vset x k (x k - x i * l i k)) x
      vset x k (x k / l k k))
    (fun k y => (∀ i : Fin n, (i : Nat) < k → y i = x i) ∧
      ∀ i : Fin n, k ≤ i → l i i * y i + ∑ t ∈ Finset.univ.filter (i < ·), l t i * y t = x i) x
    ⟨fun _ _ => rfl, fun i h => absurd i.2 (by omega)⟩ (by
      rintro k y ⟨h1, h2⟩
      refine ⟨fun i hi => ?_, fun i hi => ?_⟩
      · rw [bwdStep_apply, if_neg (by rintro rfl; omega)]
        exact h1 i (by omega)
      · by_cases e : i = k
        · subst e
          rw [bwdStep_apply, if_pos rfl]
          have : ∑ t ∈ Finset.univ.filter (i < ·), l t i *
              (let x := (above i).foldl (fun x j => vset x i (x i - x j * l j i)) y
               vset x i (x i / l i i)) t = ∑ t ∈ Finset.univ.filter (i < ·), y t * l t i := by
            refine Finset.sum_congr rfl fun t ht => ?_
            rw [bwdStep_apply, if_neg (ne_of_gt (by simpa using ht)), mul_comm]
          rw [this, mul_div_cancel₀ _ (h0 i), h1 i (by omega)]
          ring
        · have hki : (i : Nat) ≠ k := fun h => e (Fin.ext h)
          rw [← h2 i (by omega)]
          congr 1
          · rw [bwdStep_apply, if_neg e]
          · refine Finset.sum_congr rfl fun t ht => ?_
            have ht : i < t := by simpa using ht
            rw [bwdStep_apply, if_neg (by rintro rfl; rw [Fin.lt_def] at ht; omega)])
  exact this.2 i (by omega)

omit [IsStrictOrderedRing K] in
/-- row `c` of the result of `invert` and `lower_inverse` -/
theorem unitRows_spec (f : (Fin n → K) → Fin n → K) (c i : Fin n) :
    unitRows f c i = f (fun t => if t = c then 1 else 0) i := by
  have := foldl_up (fun (st : M n K × (Fin n → K)) c =>
      let x := f (vset st.2 c 1)
      (List.finRange n).foldl (fun (st : M n K × (Fin n → K)) i => (upd st.1 c i (st.2 i), vset st.2 i 0)) (st.1, x))
    (fun m st => (∀ t, st.2 t = 0) ∧ ∀ c : Fin n, (c : Nat) < m → ∀ i, st.1 c i = f (fun t => if t = c then 1 else 0) i)
    (fun _ _ => 0, fun _ => 0) ⟨fun _ => rfl, fun _ h => absurd h (by omega)⟩ (by
      rintro c ⟨B, x⟩ ⟨h1, h2⟩
      simp only at h1 h2 ⊢
      have hx : vset x c 1 = fun t => if t = c then 1 else 0 := by
        funext t; simp [vset, h1]
      rw [hx]
      generalize hz : f (fun t => if t = c then 1 else 0) = z
      have hin := foldl_up (fun (st : M n K × (Fin n → K)) i => (upd st.1 c i (st.2 i), vset st.2 i 0))
        (fun m st => (∀ t : Fin n, (t : Nat) < m → st.2 t = 0) ∧ (∀ t : Fin n, m ≤ t → st.2 t = z t) ∧
          (∀ t : Fin n, (t : Nat) < m → st.1 c t = z t) ∧ ∀ d, d ≠ c → ∀ t, st.1 d t = B d t) (B, z)
        ⟨fun _ h => absurd h (by omega), fun _ _ => rfl, fun _ h => absurd h (by omega), fun _ _ _ => rfl⟩ (by
          rintro k ⟨B', y⟩ ⟨g1, g2, g3, g4⟩
          simp only at g1 g2 g3 g4 ⊢
          refine ⟨fun t ht => ?_, fun t ht => ?_, fun t ht => ?_, fun d hd t => ?_⟩
          · by_cases e : t = k
            · simp [vset, e]
            · have : (t : Nat) ≠ k := fun h => e (Fin.ext h)
              simp only [vset, e, if_false]
              exact g1 t (by omega)
          · have e : t ≠ k := by rintro rfl; omega
            simp only [vset, e, if_false]
            exact g2 t (by omega)
          · by_cases e : t = k
            · subst e; simp only [upd, and_self, if_true]; exact g2 t le_rfl
            · have : (t : Nat) ≠ k := fun h => e (Fin.ext h)
              simp only [upd, e, and_false, if_false]
              exact g3 t (by omega)
          · simp only [upd, hd, false_and, if_false]
            exact g4 d hd t)
      obtain ⟨g1, -, g3, g4⟩ := hin
      refine ⟨fun t => g1 t t.2, fun d hd t => ?_⟩
      by_cases e : d = c
      · subst e; rw [hz]; exact g3 t t.2
      · have : (d : Nat) ≠ c := fun h => e (Fin.ext h)
        rw [g4 d e t]
        exact h2 d (by omega) t)
  exact this.2 c c.2 i

end Verif.Mat
