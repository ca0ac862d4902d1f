import Verif.Math.LU
import Mathlib.LinearAlgebra.Matrix.Determinant.Basic
import Mathlib.LinearAlgebra.Matrix.Block
import Mathlib.LinearAlgebra.Matrix.NonsingularInverse
import Mathlib.Tactic.Ring
import Mathlib.Tactic.FieldSimp
import Mathlib.Tactic.Linarith
/-!
# Helper lemmas on the loops of the LU decomposition
-/
namespace Verif.Mat
open Verif

variable {n : Nat} {K : Type} [Field K] [LinearOrder K]

/-! ### Loops over `range(n)` -/

theorem foldl_up {σ : Type} (f : σ → Fin n → σ) (Inv : Nat → σ → Prop) (s : σ) (h0 : Inv 0 s)
    (h : ∀ (k : Fin n) s, Inv k s → Inv (k + 1) (f s k)) : Inv n ((List.finRange n).foldl f s) := by
  have : ∀ m, m ≤ n → Inv m (((List.finRange n).take m).foldl f s) := by
    intro m
    induction m with
    | zero => intro _; simpa using h0
    | succ m ih =>
      intro hm
      rw [List.take_add_one, List.getElem?_eq_getElem (by simp; omega)]
      simp only [List.getElem_finRange, Option.toList_some, List.foldl_append, List.foldl_cons, List.foldl_nil]
      exact h ⟨m, by omega⟩ _ (ih (by omega))
  have := this n le_rfl
  rwa [List.take_of_length_le (by simp)] at this

theorem foldl_down {σ : Type} (f : σ → Fin n → σ) (Inv : Nat → σ → Prop) (s : σ) (h0 : Inv n s)
    (h : ∀ (k : Fin n) s, Inv (k + 1) s → Inv k (f s k)) : Inv 0 ((List.finRange n).reverse.foldl f s) := by
  have : ∀ m, m ≤ n → Inv (n - m) (((List.finRange n).drop (n - m)).reverse.foldl f s) := by
    intro m
    induction m with
    | zero =>
      intro _
      rw [Nat.sub_zero, List.drop_of_length_le (by simp)]
      exact h0
    | succ m ih =>
      intro hm
      have hlt : n - (m + 1) < (List.finRange n).length := by simp; omega
      rw [List.drop_eq_getElem_cons hlt]
      have e : n - (m + 1) + 1 = n - m := by omega
      simp only [List.getElem_finRange, List.reverse_cons, List.foldl_append, List.foldl_cons, List.foldl_nil, e]
      refine h ⟨n - (m + 1), by omega⟩ _ ?_
      simp only [e]
      exact ih (by omega)
  have := this n le_rfl
  simpa using this

theorem mem_above {k j : Fin n} : j ∈ above k ↔ k < j := by simp [above]
theorem mem_below {k j : Fin n} : j ∈ below k ↔ j < k := by simp [below]
theorem nodup_above (k : Fin n) : (above k).Nodup := (List.nodup_finRange n).filter _
theorem nodup_below (k : Fin n) : (below k).Nodup := (List.nodup_finRange n).filter _

/-! ### Steps of the decomposition -/

theorem scaleRow_apply (a : M n K) (k i j : Fin n) :
    scaleRow a k i j = if i = k ∧ k < j then a k j / a k k else a i j := by
  unfold scaleRow
  have : ∀ (l : List (Fin n)) (a : M n K), l.Nodup → k ∉ l →
      (l.foldl (fun a j => upd a k j (a k j / a k k)) a) i j = if i = k ∧ j ∈ l then a k j / a k k else a i j := by
    intro l
    induction l with
    | nil => intro a _ _; simp
    | cons b l ih =>
      intro a hn hk
      rw [List.nodup_cons] at hn
      rw [List.mem_cons, not_or] at hk
      rw [List.foldl_cons, ih _ hn.2 hk.2]
      have e1 : ∀ c, upd a k b (a k b / a k k) k c = if c = b then a k b / a k k else a k c := by intro c; simp [upd]
      rw [e1, e1, if_neg hk.1]
      by_cases hi : i = k
      · subst hi
        by_cases hj : j = b
        · subst hj; simp [hn.1, upd]
        · simp [hj, upd]
      · simp [hi, upd]
  rw [this (above k) a (nodup_above k) (by simp [mem_above])]
  simp only [mem_above]

theorem elimRow_apply (a : M n K) (k r i j : Fin n) (l : List (Fin n)) (hr : r ≠ k) (hn : l.Nodup) (hk : k ∉ l) :
    (l.foldl (fun a j => upd a r j (a r j - a r k * a k j)) a) i j =
      if i = r ∧ j ∈ l then a r j - a r k * a k j else a i j := by
  induction l generalizing a with
  | nil => simp
  | cons b l ih =>
    rw [List.nodup_cons] at hn
    rw [List.mem_cons, not_or] at hk
    rw [List.foldl_cons, ih _ hn.2 hk.2]
    have e1 : ∀ c, upd a r b (a r b - a r k * a k b) k c = a k c := by
      intro c; simp [upd, Ne.symm hr]
    have e2 : ∀ c, upd a r b (a r b - a r k * a k b) r c = if c = b then a r b - a r k * a k b else a r c := by intro c; simp [upd]
    rw [e1, e2, e2, if_neg hk.1]
    by_cases hi : i = r
    · subst hi
      by_cases hj : j = b
      · subst hj; simp [hn.1, upd]
      · simp [hj, upd]
    · simp [hi, upd]

theorem eliminate_apply (a : M n K) (k i j : Fin n) :
    eliminate a k i j = if k < i ∧ k < j then a i j - a i k * a k j else a i j := by
  unfold eliminate
  have : ∀ (l : List (Fin n)) (a : M n K), l.Nodup → k ∉ l →
      (l.foldl (fun a i => (above k).foldl (fun a j => upd a i j (a i j - a i k * a k j)) a) a) i j =
        if i ∈ l ∧ k < j then a i j - a i k * a k j else a i j := by
    intro l
    induction l with
    | nil => intro a _ _; simp
    | cons b l ih =>
      intro a hn hk
      rw [List.nodup_cons] at hn
      rw [List.mem_cons, not_or] at hk
      rw [List.foldl_cons, ih _ hn.2 hk.2]
      have e : ∀ r c, ((above k).foldl (fun a j => upd a b j (a b j - a b k * a k j)) a) r c =
          if r = b ∧ c ∈ above k then a b c - a b k * a k c else a r c :=
        fun r c => elimRow_apply a k b r c (above k) (fun h => hk.1 h.symm) (nodup_above k) (by simp [mem_above])
      simp only [e, mem_above, lt_irrefl, and_false, if_false, if_neg (fun h : k = b ∧ k < j => hk.1 h.1)]
      by_cases hi : i = b
      · subst hi
        simp [hn.1]
      · simp [hi]
  rw [this (above k) a (nodup_above k) (by simp [mem_above])]
  simp only [mem_above]

theorem swapRows_apply (a : M n K) (p k i j : Fin n) : swapRows a p k i j = a (Equiv.swap k p i) j := by
  unfold swapRows
  have : ∀ (l : List (Fin n)) (a : M n K), l.Nodup →
      (l.foldl (fun a j => upd (upd a p j (a k j)) k j (a p j)) a) i j = if j ∈ l then a (Equiv.swap k p i) j else a i j := by
    intro l
    induction l with
    | nil => intro a _; simp
    | cons b l ih =>
      intro a hn
      rw [List.nodup_cons] at hn
      rw [List.foldl_cons, ih _ hn.2]
      by_cases hj : j = b
      · subst hj
        simp only [hn.1, if_false, List.mem_cons, true_or, if_true]
        by_cases h1 : i = k
        · subst h1; simp [upd]
        · by_cases h2 : i = p
          · subst h2; simp [upd, h1]
          · simp [upd, h1, h2, Equiv.swap_apply_of_ne_of_ne]
      · simp [upd, hj]
  rw [this _ a (List.nodup_finRange n)]
  simp

theorem findPivot_spec (a : M n K) (k : Fin n) :
    k ≤ (findPivot a k).2 ∧ ∀ j, k ≤ j → |a j k| ≤ |a (findPivot a k).2 k| := by
  unfold findPivot
  have : ∀ (l : List (Fin n)) (s : K × Fin n), (∀ j ∈ l, k < j) → k ≤ s.2 → s.1 = |a s.2 k| →
      let r := l.foldl (fun s j => if s.1 < |a j k| then (|a j k|, j) else s) s
      k ≤ r.2 ∧ r.1 = |a r.2 k| ∧ s.1 ≤ r.1 ∧ ∀ j ∈ l, |a j k| ≤ r.1 := by
    intro l
    induction l with
    | nil => intro s _ h1 h2; exact ⟨h1, h2, le_rfl, by simp⟩
    | cons b l ih =>
      intro s hl h1 h2
      simp only [List.foldl_cons]
      by_cases hc : s.1 < |a b k|
      · rw [if_pos hc]
        obtain ⟨r1, r2, r3, r4⟩ := ih (|a b k|, b) (fun j hj => hl j (by simp [hj])) (le_of_lt (hl b (by simp))) rfl
        refine ⟨r1, r2, le_trans (le_of_lt hc) r3, ?_⟩
        intro j hj
        rcases List.mem_cons.1 hj with rfl | hj
        · exact r3
        · exact r4 j hj
      · rw [if_neg hc]
        obtain ⟨r1, r2, r3, r4⟩ := ih s (fun j hj => hl j (by simp [hj])) h1 h2
        refine ⟨r1, r2, r3, ?_⟩
        intro j hj
        rcases List.mem_cons.1 hj with rfl | hj
        · exact le_trans (not_lt.1 hc) r3
        · exact r4 j hj
  obtain ⟨r1, r2, r3, r4⟩ := this (above k) (|a k k|, k) (fun j hj => mem_above.1 hj) le_rfl rfl
  refine ⟨r1, ?_⟩
  intro j hj
  rw [← r2]
  rcases eq_or_lt_of_le hj with rfl | h
  · exact r3
  · exact r4 j (mem_above.2 h)

/-! ### Substitutions -/

theorem fold_sub (a : Fin n → K) (k : Fin n) (l : List (Fin n)) (r : Fin n → K) (hk : k ∉ l) :
    l.foldl (fun r i => vset r k (r k - r i * a i)) r = vset r k (r k - (l.map fun i => r i * a i).sum) := by
  induction l generalizing r with
  | nil =>
    funext c
    simp only [List.foldl_nil, List.map_nil, List.sum_nil, sub_zero, vset]
    split
    · rename_i h; rw [h]
    · rfl
  | cons b l ih =>
    rw [List.mem_cons, not_or] at hk
    rw [List.foldl_cons, ih _ hk.2]
    have hl : (l.map fun i => vset r k (r k - r b * a b) i * a i) = l.map fun i => r i * a i := by
      apply List.map_congr_left
      intro i hi
      have : i ≠ k := by rintro rfl; exact hk.2 hi
      simp [vset, this]
    rw [hl]
    funext c
    simp only [vset, List.map_cons, List.sum_cons]
    by_cases h : c = k
    · simp only [h, if_true]; ring
    · simp [h]

theorem fwdRow_apply (a : M n K) (r : Fin n → K) (k c : Fin n) (v : K) :
    fwdRow a r k v c = if c = k then (v - ∑ i ∈ Finset.univ.filter (· < k), r i * a k i) / a k k else r c := by
  unfold fwdRow
  rw [fold_sub (a k) k (below k) _ (by simp [mem_below])]
  have hl : ((below k).map fun i => vset r k v i * a k i) = (below k).map fun i => r i * a k i := by
    apply List.map_congr_left
    intro i hi
    have : i ≠ k := ne_of_lt (mem_below.1 hi)
    simp [vset, this]
  have hs : ((below k).map fun i => r i * a k i).sum = ∑ i ∈ Finset.univ.filter (· < k), r i * a k i := by
    rw [← List.sum_toFinset _ (nodup_below k)]
    refine Finset.sum_congr ?_ fun _ _ => rfl
    ext i
    simp [mem_below]
  rw [hl, hs]
  by_cases h : c = k
  · simp [vset, h]
  · simp [vset, h]

theorem bwdRow_apply (a : M n K) (r : Fin n → K) (k c : Fin n) :
    bwdRow a r k c = if c = k then r k - ∑ i ∈ Finset.univ.filter (k < ·), r i * a k i else r c := by
  unfold bwdRow
  rw [fold_sub (a k) k (above k) _ (by simp [mem_above])]
  have hs : ((above k).map fun i => r i * a k i).sum = ∑ i ∈ Finset.univ.filter (k < ·), r i * a k i := by
    rw [← List.sum_toFinset _ (nodup_above k)]
    refine Finset.sum_congr ?_ fun _ _ => rfl
    ext i
    simp [mem_above]
  rw [hs]
  simp [vset]

/-! ### The permutation of the rows -/

/-- product of the exchanges made by the first `m` steps -/
def prm (ipiv : Fin n → Fin n) : Nat → Equiv.Perm (Fin n)
  | 0 => 1
  | m + 1 => if h : m < n then prm ipiv m * Equiv.swap ⟨m, h⟩ (ipiv ⟨m, h⟩) else prm ipiv m

theorem prm_succ (ipiv : Fin n → Fin n) (k : Fin n) : prm ipiv (k + 1) = prm ipiv k * Equiv.swap k (ipiv k) := by
  rw [prm, dif_pos k.2]

theorem prm_congr (p q : Fin n → Fin n) (m : Nat) (h : ∀ j : Fin n, (j : Nat) < m → p j = q j) : prm p m = prm q m := by
  induction m with
  | zero => rfl
  | succ m ih =>
    rw [prm, prm, ih fun j hj => h j (by omega)]
    split
    · rw [h _ (by simp)]
    · rfl

/-- later exchanges do not touch row `k` -/
theorem prm_fix (p : Fin n → Fin n) (hp : ∀ j, j ≤ p j) (k : Fin n) (m : Nat) (hm : k < m) : prm p m k = prm p (k + 1) k := by
  induction m with
  | zero => omega
  | succ m ih =>
    by_cases e : m = k
    · rw [e]
    · have hlt : (k : Nat) < m := by omega
      rw [prm]
      split
      · rename_i hmn
        rw [Equiv.Perm.mul_apply, Equiv.swap_apply_of_ne_of_ne, ih hlt]
        · intro h; rw [Fin.ext_iff] at h; simp only at h; omega
        · intro h
          have := hp ⟨m, hmn⟩
          rw [← h, Fin.le_def] at this
          simp only at this; omega
      · exact ih hlt

end Verif.Mat
