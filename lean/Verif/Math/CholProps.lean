import Verif.Math.CholLemmas
import Mathlib.Algebra.Order.BigOperators.Group.Finset
import Mathlib.Algebra.Order.BigOperators.Ring.Finset
import Mathlib.Analysis.Real.Sqrt
import Mathlib.Algebra.Field.Rat
/-!
# C54: the Cholesky decomposition

Specification: `quad A x` is the quadratic form of the matrix; it is positive definite if the form is positive on every non zero vector.
-/
namespace Verif.Mat
open Verif

variable {n : Nat} {K : Type} [Field K] [LinearOrder K] [IsStrictOrderedRing K]

/-- the quadratic form of a matrix -/
def quad (A : M n K) (x : Fin n → K) : K := ∑ r, ∑ c, x r * A r c * x c

/-- what is assumed of `sqrt` -/
def IsSqrt (sq : K → K) : Prop := ∀ s, 0 < s → 0 < sq s ∧ sq s * sq s = s

/-- the rows before `i` are those of the factor, the others those of the matrix -/
structure CInv (A : M n K) (i : Nat) (l : M n K) : Prop where
  low : ∀ r : Fin n, (r : Nat) < i → ∀ c, c ≤ r → ∑ k ∈ Finset.univ.filter (· ≤ c), l r k * l c k = A r c
  pos : ∀ r : Fin n, (r : Nat) < i → 0 < l r r
  zero : ∀ r : Fin n, (r : Nat) < i → ∀ c, r < c → l r c = 0
  rest : ∀ r : Fin n, i ≤ r → ∀ c, l r c = A r c

/-- in the row `i`, the entries before `j` are those of the factor -/
structure RInv (A : M n K) (i : Fin n) (j : Nat) (l : M n K) : Prop where
  low : ∀ r : Fin n, r < i → ∀ c, c ≤ r → ∑ k ∈ Finset.univ.filter (· ≤ c), l r k * l c k = A r c
  pos : ∀ r : Fin n, r < i → 0 < l r r
  zero : ∀ r : Fin n, r < i → ∀ c, r < c → l r c = 0
  row : ∀ c : Fin n, (c : Nat) < j → ∑ k ∈ Finset.univ.filter (· ≤ c), l i k * l c k = A i c
  todo : ∀ c : Fin n, j ≤ c → l i c = A i c
  diag : (i : Nat) < j → 0 < l i i
  rest : ∀ r : Fin n, i < r → ∀ c, l r c = A r c

/-- the case where `decompose` gives up: the matrix is not positive definite -/
theorem chol_fail (A : M n K) (hA : ∀ r c, A r c = A c r) (i : Fin n) (l : M n K) (h : RInv A i i l)
    (hs : l i i - ∑ k ∈ Finset.univ.filter (· < i), l i k * l i k ≤ 0) : ∃ x : Fin n → K, x ≠ 0 ∧ quad A x ≤ 0 := by
  -- solution of the triangular system made of the first rows
  let lt : M n K := fun t k => if t < i then l t k else if t = k then 1 else 0
  have hlt : ∀ t, lt t t ≠ 0 := by
    intro t
    by_cases ht : t < i
    · simp only [lt, ht, if_true]; exact ne_of_gt (h.pos t ht)
    · simp [lt, ht]
  let w : Fin n → K := fun k => if k < i then l i k else 0
  set y := substBackward lt w with hy
  have hys := substBackward_spec lt hlt w
  rw [← hy] at hys
  have hy0 : ∀ k, ¬ k < i → y k = 0 := by
    intro k hk
    have := hys k
    rw [Finset.sum_eq_zero] at this
    · simpa [lt, w, hk] using this
    · intro t ht
      have ht : k < t := by simpa using ht
      have : ¬ t < i := fun h => hk (lt_trans ht h)
      simp [lt, this, ne_of_gt ht]
  let x : Fin n → K := fun t => if t = i then 1 else - y t
  -- the matrix whose rows span the part of the form that is a sum of squares
  let g : M n K := fun r k => if r < i then l r k else if r = i ∧ k < i then l i k else 0
  have hg : ∀ k, ∑ r, x r * g r k = 0 := by
    intro k
    have e : ∀ r, x r * g r k = (if r = i then w k else 0) - y r * lt r k := by
      intro r
      rcases lt_trichotomy r i with hr | hr | hr
      · simp [x, g, lt, hr, ne_of_lt hr]
      · subst hr
        simp [x, g, w, hy0 r (lt_irrefl r)]
      · simp [x, g, hy0 r (not_lt.2 (le_of_lt hr)), ne_of_gt hr]
    rw [Finset.sum_congr rfl fun r _ => e r, Finset.sum_sub_distrib]
    simp only [Finset.sum_ite_eq', Finset.mem_univ, if_true]
    rw [← hys k, sub_eq_zero]
    have e2 : ∀ r, y r * lt r k = (if r = k then lt k k * y k else 0) + if k < r then lt r k * y r else 0 := by
      intro r
      rcases lt_trichotomy r k with hr | hr | hr
      · have : lt r k = 0 := by
          by_cases hri : r < i
          · simp only [lt, hri, if_true]; exact h.zero r hri k hr
          · simp [lt, hri, ne_of_lt hr]
        simp [this, ne_of_lt hr, not_lt.2 (le_of_lt hr)]
      · subst hr; simp [mul_comm]
      · simp [hr, ne_of_gt hr, mul_comm]
    rw [Finset.sum_congr rfl fun r _ => e2 r, Finset.sum_add_distrib, Finset.sum_filter]
    simp
  have hAg : ∀ r c, r ≤ i → c ≤ r → A r c = ∑ k, g r k * g c k + if r = i ∧ c = i then
      l i i - ∑ k ∈ Finset.univ.filter (· < i), l i k * l i k else 0 := by
    intro r c hr hc
    rcases lt_or_eq_of_le hr with hr | hr
    · have hci : c < i := lt_of_le_of_lt hc hr
      rw [← h.low r hr c hc, Finset.sum_filter]
      simp only [g, hr, hci, if_true, ne_of_lt hr, false_and, if_false, add_zero]
      refine Finset.sum_congr rfl fun k _ => ?_
      by_cases hk : k ≤ c
      · simp [hk]
      · simp [hk, h.zero c hci k (not_le.1 hk)]
    · subst hr
      rcases lt_or_eq_of_le hc with hc' | hc'
      · rw [← h.row c hc', Finset.sum_filter]
        simp only [g, lt_irrefl, hc', true_and, if_true, ne_of_lt hc', if_false, add_zero]
        refine Finset.sum_congr rfl fun k _ => ?_
        by_cases hk : k ≤ c
        · simp [hk, lt_of_le_of_lt hk hc']
        · simp [hk, h.zero c hc' k (not_le.1 hk)]
      · subst hc'
        rw [← h.todo c le_rfl, Finset.sum_filter]
        simp only [g, lt_irrefl, true_and, if_true, and_self, if_false]
        have : ∀ k, (if k < c then l c k else 0) * (if k < c then l c k else 0) = if k < c then l c k * l c k else 0 := by
          intro k; split <;> simp
        rw [Finset.sum_congr rfl fun k _ => this k]
        ring
  have hAll : ∀ r c, x r * A r c * x c = x r * x c * ∑ k, g r k * g c k + if r = i then if c = i then
      l i i - ∑ k ∈ Finset.univ.filter (· < i), l i k * l i k else 0 else 0 := by
    intro r c
    by_cases hr : i < r
    · have : x r = 0 := by simp [x, ne_of_gt hr, hy0 r (not_lt.2 (le_of_lt hr))]
      simp [this, ne_of_gt hr]
    by_cases hc : i < c
    · have : x c = 0 := by simp [x, ne_of_gt hc, hy0 c (not_lt.2 (le_of_lt hc))]
      simp [this, ne_of_gt hc]
    have hx1 : ∀ (z : K), x r * x c * (if r = i ∧ c = i then z else 0) = if r = i then if c = i then z else 0 else 0 := by
      intro z
      by_cases e1 : r = i
      · by_cases e2 : c = i
        · simp [e1, e2, x]
        · simp [e2]
      · simp [e1]
    rw [← hx1]
    rcases le_total c r with hcr | hcr
    · rw [hAg r c (not_lt.1 hr) hcr]; ring
    · rw [hA r c, hAg c r (not_lt.1 hc) hcr]
      have : ∑ k, g c k * g r k = ∑ k, g r k * g c k := Finset.sum_congr rfl fun k _ => mul_comm _ _
      rw [this]
      simp only [and_comm (a := c = i)]
      ring
  refine ⟨x, ?_, ?_⟩
  · intro h0
    have := congrFun h0 i
    simp [x] at this
  · unfold quad
    have hq : ∑ r, ∑ c, x r * A r c * x c = (∑ r, ∑ c, x r * x c * ∑ k, g r k * g c k) +
        (l i i - ∑ k ∈ Finset.univ.filter (· < i), l i k * l i k) := by
      simp only [hAll, Finset.sum_add_distrib]
      simp
    have hz : ∑ r, ∑ c, x r * x c * ∑ k, g r k * g c k = 0 := by
      have : ∀ r, ∑ c, x r * x c * ∑ k, g r k * g c k = ∑ k, x r * g r k * ∑ c, x c * g c k := by
        intro r
        simp only [Finset.mul_sum]
        rw [Finset.sum_comm]
        refine Finset.sum_congr rfl fun k _ => Finset.sum_congr rfl fun c _ => ?_
        ring
      simp [this, hg]
    rw [hq, hz, zero_add]
    exact hs

theorem chol_entry (sq : K → K) (hsq : IsSqrt sq) (A : M n K) (i j : Fin n) (hji : j ≤ i) (l l' : M n K) (h : RInv A i j l)
    (he : cholEntry sq l i j = some l') : RInv A i (j + 1) l' := by
  rw [cholEntry_eq] at he
  -- entries of `l'`
  have key : ∀ v, l' = upd l i j v → (∑ k ∈ Finset.univ.filter (· < j), l i k * l j k) + v * l' j j = A i j →
      (i = j → 0 < v) → RInv A i (j + 1) l' := by
    intro v hv hsum hd
    have e1 : ∀ r, r ≠ i → ∀ c, l' r c = l r c := by
      intro r hr c; rw [hv]; simp [upd, hr]
    have e2 : ∀ c, c ≠ j → l' i c = l i c := by
      intro c hc; rw [hv]; simp [upd, hc]
    have e3 : l' i j = v := by rw [hv]; simp [upd]
    refine ⟨?_, ?_, ?_, ?_, ?_, ?_, ?_⟩
    · intro r hr c hc
      rw [← h.low r hr c hc]
      refine Finset.sum_congr rfl fun k _ => ?_
      rw [e1 r (ne_of_lt hr), e1 c (ne_of_lt (lt_of_le_of_lt hc hr))]
    · intro r hr; rw [e1 r (ne_of_lt hr)]; exact h.pos r hr
    · intro r hr c hc; rw [e1 r (ne_of_lt hr)]; exact h.zero r hr c hc
    · intro c hc
      by_cases ecj : c = j
      · subst ecj
        rw [sum_le, e3, ← hsum]
        congr 1
        refine Finset.sum_congr rfl fun k hk => ?_
        have hk : k < c := by simpa using hk
        rw [e2 k (ne_of_lt hk)]
        by_cases hci : c = i
        · subst hci; rw [e2 k (ne_of_lt hk)]
        · rw [e1 c hci]
      · have hcj : c < j := by
          have : (c : Nat) ≠ j := fun h => ecj (Fin.ext h)
          rw [Fin.lt_def]; omega
        rw [← h.row c hcj]
        refine Finset.sum_congr rfl fun k hk => ?_
        have hk : k ≤ c := by simpa using hk
        rw [e2 k (ne_of_lt (lt_of_le_of_lt hk hcj)), e1 c (ne_of_lt (lt_of_lt_of_le hcj hji))]
    · intro c hc
      rw [e2 c (by rintro rfl; omega)]
      exact h.todo c (by omega)
    · intro hij
      have : i = j := by
        rw [Fin.le_def] at hji; exact Fin.ext (by omega)
      rw [this] at e3 ⊢
      rw [e3]; exact hd this
    · intro r hr c; rw [e1 r (ne_of_gt hr)]; exact h.rest r hr c
  by_cases hij : i = j
  · subst hij
    rw [if_pos rfl] at he
    split at he
    · exact absurd he (by simp)
    · rename_i hs
      rw [not_le] at hs
      obtain ⟨p1, p2⟩ := hsq _ hs
      simp only [Option.some.injEq] at he
      refine key _ he.symm ?_ (fun _ => p1)
      have : l' i i = sq (l i i - ∑ k ∈ Finset.univ.filter (· < i), l i k * l i k) := by rw [← he]; simp [upd]
      rw [this, p2, h.todo i le_rfl]
      ring
  · rw [if_neg hij] at he
    simp only [Option.some.injEq] at he
    refine key _ he.symm ?_ (fun h => absurd h hij)
    have hlt : j < i := lt_of_le_of_ne hji (fun h => hij h.symm)
    have : l' j j = l j j := by rw [← he]; simp [upd, Ne.symm hij]
    have hne := ne_of_gt (h.pos j hlt)
    rw [this, h.todo j le_rfl, div_mul_cancel₀ _ hne]
    ring

/-- state of the outer loop -/
def COut (A : M n K) (i : Nat) : Option (M n K) → Prop
  | some l => CInv A i l
  | none => ∃ x : Fin n → K, x ≠ 0 ∧ quad A x ≤ 0

theorem chol_row (sq : K → K) (hsq : IsSqrt sq) (A : M n K) (hA : ∀ r c, A r c = A c r) (i : Fin n) (l : M n K) (h : CInv A i l) :
    COut A (i + 1) (cholRow sq l i) := by
  have hin := foldl_upto i (fun (st : Option (M n K)) j => st.bind fun l => cholEntry sq l i j)
    (fun j st => match st with
      | some l => RInv A i j l
      | none => ∃ x : Fin n → K, x ≠ 0 ∧ quad A x ≤ 0) (some l)
    (by
      exact { low := fun r hr => h.low r hr, pos := fun r hr => h.pos r hr, zero := fun r hr => h.zero r hr,
              row := fun c hc => absurd hc (by omega), todo := fun c _ => h.rest i le_rfl c,
              diag := fun h => absurd h (by omega), rest := fun r hr => h.rest r (le_of_lt hr) })
    (by
      intro j st hji hst
      cases st with
      | none => exact hst
      | some l =>
        simp only [Option.bind_some] at hst ⊢
        split
        · rename_i l' he
          exact chol_entry sq hsq A i j hji l l' hst he
        · rename_i he
          rw [cholEntry_eq] at he
          by_cases hij : i = j
          · subst hij
            rw [if_pos rfl] at he
            split at he
            · rename_i hs
              exact chol_fail A hA i l hst hs
            · simp at he
          · rw [if_neg hij] at he
            simp at he)
  unfold cholRow
  generalize (upto i).foldl (fun (st : Option (M n K)) j => st.bind fun l => cholEntry sq l i j) (some l) = st at hin ⊢
  cases st with
  | none => exact hin
  | some l =>
    simp only at hin
    show CInv A (i + 1) ((above i).foldl (fun l j => upd l i j 0) l)
    have e1 : ∀ r, r ≠ i → ∀ c, ((above i).foldl (fun l j => upd l i j 0) l) r c = l r c := by
      intro r hr c; rw [zeroAbove_apply]; simp [hr]
    have e2 : ∀ c, c ≤ i → ((above i).foldl (fun l j => upd l i j 0) l) i c = l i c := by
      intro c hc; rw [zeroAbove_apply]; simp [not_lt.2 hc]
    refine ⟨?_, ?_, ?_, ?_⟩
    · intro r hr c hc
      have e3 : ∀ r, r ≤ i → ∀ c, c ≤ r → ((above i).foldl (fun l j => upd l i j 0) l) r c = l r c := by
        intro r hr c hc
        by_cases e : r = i
        · subst e; exact e2 c hc
        · exact e1 r e c
      have hri : r ≤ i := by rw [Fin.le_def]; omega
      have : ∑ k ∈ Finset.univ.filter (· ≤ c), ((above i).foldl (fun l j => upd l i j 0) l) r k *
          ((above i).foldl (fun l j => upd l i j 0) l) c k = ∑ k ∈ Finset.univ.filter (· ≤ c), l r k * l c k := by
        refine Finset.sum_congr rfl fun k hk => ?_
        have hk : k ≤ c := by simpa using hk
        rw [e3 r hri k (le_trans hk hc), e3 c (le_trans hc hri) k hk]
      rw [this]
      by_cases e : r = i
      · subst e; exact hin.row c (by rw [Fin.le_def] at hc; omega)
      · exact hin.low r (lt_of_le_of_ne hri e) c hc
    · intro r hr
      by_cases e : r = i
      · subst e; rw [e2 r le_rfl]; exact hin.diag (by omega)
      · have hri : r ≤ i := by rw [Fin.le_def]; omega
        rw [e1 r e]; exact hin.pos r (lt_of_le_of_ne hri e)
    · intro r hr c hc
      by_cases e : r = i
      · subst e; rw [zeroAbove_apply]; simp [hc]
      · have hri : r ≤ i := by rw [Fin.le_def]; omega
        rw [e1 r e]; exact hin.zero r (lt_of_le_of_ne hri e) c hc
    · intro r hr c
      have hri : i < r := by rw [Fin.lt_def]; omega
      rw [e1 r (ne_of_gt hri)]; exact hin.rest r hri c

theorem chol_out (sq : K → K) (hsq : IsSqrt sq) (A : M n K) (hA : ∀ r c, A r c = A c r) : COut A n (cholDecompose sq A) :=
  foldl_up (fun (st : Option (M n K)) i => st.bind fun l => cholRow sq l i) (fun i st => COut A i st) (some A)
    (by
      exact { low := fun r hr => absurd hr (by omega), pos := fun r hr => absurd hr (by omega), zero := fun r hr => absurd hr (by omega),
              rest := fun _ _ _ => rfl })
    (by
      intro k st hst
      cases st with
      | none => exact hst
      | some l => exact chol_row sq hsq A hA k l hst)

/-- the result is lower triangular, with a positive diagonal, and the product with its transpose is the matrix -/
structure IsChol (A l : M n K) : Prop where
  prod : ∀ r c, ∑ k, l r k * l c k = A r c
  tri : ∀ r c, r < c → l r c = 0
  diag : ∀ r, 0 < l r r

/-- **C54** `decompose` returns a lower triangular matrix with a positive diagonal such that `L Lᵀ = A`, or gives up; it gives up
only if the form of the matrix is not positive on some non zero vector -/
theorem C54_decompose (sq : K → K) (hsq : IsSqrt sq) (A : M n K) (hA : ∀ r c, A r c = A c r) :
    match cholDecompose sq A with
    | some l => IsChol A l
    | none => ∃ x : Fin n → K, x ≠ 0 ∧ quad A x ≤ 0 := by
  have h := chol_out sq hsq A hA
  cases hd : cholDecompose sq A with
  | none => rw [hd] at h; exact h
  | some l =>
    rw [hd] at h
    have h : CInv A n l := h
    refine ⟨?_, fun r c => h.zero r r.2 c, fun r => h.pos r r.2⟩
    have hle : ∀ r c, c ≤ r → ∑ k, l r k * l c k = A r c := by
      intro r c hc
      rw [← h.low r r.2 c hc, Finset.sum_filter]
      refine Finset.sum_congr rfl fun k _ => ?_
      by_cases hk : k ≤ c
      · simp [hk]
      · simp [hk, h.zero c c.2 k (not_le.1 hk)]
    intro r c
    rcases le_total c r with hc | hc
    · exact hle r c hc
    · rw [hA r c, ← hle c r hc]
      exact Finset.sum_congr rfl fun k _ => mul_comm _ _

omit [LinearOrder K] [IsStrictOrderedRing K] in
theorem sum_lower (l : M n K) (tri : ∀ r c, r < c → l r c = 0) (f : Fin n → K) (r : Fin n) :
    ∑ t ∈ Finset.univ.filter (· ≤ r), l r t * f t = ∑ t, l r t * f t := by
  rw [Finset.sum_filter]
  refine Finset.sum_congr rfl fun t _ => ?_
  by_cases ht : t ≤ r
  · simp [ht]
  · simp [ht, tri r t (not_le.1 ht)]

omit [LinearOrder K] [IsStrictOrderedRing K] in
theorem sum_upper (l : M n K) (tri : ∀ r c, r < c → l r c = 0) (f : Fin n → K) (c : Fin n) :
    l c c * f c + ∑ t ∈ Finset.univ.filter (c < ·), l t c * f t = ∑ t, l t c * f t := by
  have e : ∀ t, l t c * f t = (if t = c then l c c * f c else 0) + if c < t then l t c * f t else 0 := by
    intro t
    rcases lt_trichotomy t c with h | h | h
    · simp [tri t c h, ne_of_lt h]
    · subst h; simp
    · simp [h, ne_of_gt h]
  symm
  rw [Finset.sum_congr rfl fun t _ => e t, Finset.sum_add_distrib, ← Finset.sum_filter (fun t => c < t),
    Finset.sum_ite_eq' Finset.univ c, if_pos (Finset.mem_univ c)]

/-- the triangular systems -/
theorem chol_forward {A l : M n K} (h : IsChol A l) (b : Fin n → K) (i : Fin n) : ∑ t, l i t * substForward l b t = b i := by
  rw [← sum_lower l h.tri]
  exact substForward_spec l (fun i => ne_of_gt (h.diag i)) b i

theorem chol_backward {A l : M n K} (h : IsChol A l) (b : Fin n → K) (i : Fin n) : ∑ t, l t i * substBackward l b t = b i := by
  rw [← sum_upper l h.tri (substBackward l b) i]
  exact substBackward_spec l (fun i => ne_of_gt (h.diag i)) b i

/-- **C54** `solve` returns the solution of the system -/
theorem C54_solve (sq : K → K) (hsq : IsSqrt sq) (A l : M n K) (hA : ∀ r c, A r c = A c r) (hd : cholDecompose sq A = some l)
    (b : Fin n → K) (i : Fin n) : ∑ j, A i j * cholSolve l b j = b i := by
  have h := C54_decompose sq hsq A hA
  rw [hd] at h
  have h : IsChol A l := h
  rw [← chol_forward h b i]
  have e : ∀ t, substForward l b t = ∑ j, l j t * cholSolve l b j := fun t => (chol_backward h _ t).symm
  simp only [e, ← h.prod, Finset.sum_mul, Finset.mul_sum]
  rw [Finset.sum_comm]
  refine Finset.sum_congr rfl fun k _ => Finset.sum_congr rfl fun j _ => ?_
  ring

/-- **C54** `invert` returns the inverse, on both sides -/
theorem C54_invert (sq : K → K) (hsq : IsSqrt sq) (A l : M n K) (hA : ∀ r c, A r c = A c r) (hd : cholDecompose sq A = some l) :
    Matrix.of A * Matrix.of (cholInvert l) = 1 ∧ Matrix.of (cholInvert l) * Matrix.of A = 1 := by
  have hm : Matrix.of (cholInvert l) * Matrix.of A = 1 := by
    ext c i
    rw [Matrix.mul_apply, Matrix.one_apply]
    have := C54_solve sq hsq A l hA hd (fun t => if t = c then 1 else 0) i
    simp only [Matrix.of_apply, cholInvert, unitRows_spec]
    simp only [eq_comm (a := c) (b := i)]
    rw [← this]
    refine Finset.sum_congr rfl fun j _ => ?_
    rw [hA j i, mul_comm]
    rfl
  exact ⟨mul_eq_one_comm.1 hm, hm⟩

/-- **C54** `lower_inverse` returns the inverse of the triangular factor, on both sides -/
theorem C54_lower_inverse (sq : K → K) (hsq : IsSqrt sq) (A l : M n K) (hA : ∀ r c, A r c = A c r)
    (hd : cholDecompose sq A = some l) :
    Matrix.of l * Matrix.of (cholLowerInverse l) = 1 ∧ Matrix.of (cholLowerInverse l) * Matrix.of l = 1 := by
  have h := C54_decompose sq hsq A hA
  rw [hd] at h
  have h : IsChol A l := h
  have hm : Matrix.of (cholLowerInverse l) * Matrix.of l = 1 := by
    ext c i
    rw [Matrix.mul_apply, Matrix.one_apply]
    simp only [Matrix.of_apply, cholLowerInverse, unitRows_spec]
    simp only [eq_comm (a := c) (b := i)]
    rw [← chol_backward h (fun t => if t = c then 1 else 0) i]
    exact Finset.sum_congr rfl fun j _ => mul_comm _ _
  exact ⟨mul_eq_one_comm.1 hm, hm⟩

/-- **C54** the square of `lower_determinant` is the determinant of the matrix, and it is positive -/
theorem C54_lower_determinant (sq : K → K) (hsq : IsSqrt sq) (A l : M n K) (hA : ∀ r c, A r c = A c r)
    (hd : cholDecompose sq A = some l) :
    0 < cholLowerDet l ∧ cholLowerDet l = (Matrix.of l).det ∧ cholLowerDet l * cholLowerDet l = (Matrix.of A).det := by
  have h := C54_decompose sq hsq A hA
  rw [hd] at h
  have h : IsChol A l := h
  have e : cholLowerDet l = ∏ i, l i i := by
    unfold cholLowerDet
    have : ∀ (L : List (Fin n)) (d : K), L.foldl (fun d i => d * l i i) d = d * (L.map fun i => l i i).prod := by
      intro L
      induction L with
      | nil => intro d; simp
      | cons a L ih => intro d; simp only [List.foldl_cons, ih, List.map_cons, List.prod_cons, mul_assoc]
    rw [this, one_mul, ← List.ofFn_eq_map, List.prod_ofFn]
  have hdet : (Matrix.of l).det = ∏ i, l i i := by
    rw [Matrix.det_of_lowerTriangular]
    · rfl
    · intro i j hij
      exact h.tri i j hij
  refine ⟨?_, e.trans hdet.symm, ?_⟩
  · rw [e]; exact Finset.prod_pos fun i _ => h.diag i
  · have : Matrix.of A = Matrix.of l * (Matrix.of l).transpose := by
      ext r c
      rw [Matrix.mul_apply]
      exact (h.prod r c).symm
    rw [this, Matrix.det_mul, Matrix.det_transpose, hdet, e]

/-- **C54** the decomposition succeeds exactly for the positive definite matrices -/
theorem C54_succeeds_iff (sq : K → K) (hsq : IsSqrt sq) (A : M n K) (hA : ∀ r c, A r c = A c r) :
    (cholDecompose sq A).isSome = true ↔ ∀ x : Fin n → K, x ≠ 0 → 0 < quad A x := by
  have h := C54_decompose sq hsq A hA
  constructor
  · intro hs x hx
    obtain ⟨l, hd⟩ := Option.isSome_iff_exists.1 hs
    rw [hd] at h
    have h : IsChol A l := h
    have hq : quad A x = ∑ k, (∑ r, x r * l r k) * ∑ r, x r * l r k := by
      unfold quad
      simp only [← h.prod, Finset.sum_mul, Finset.mul_sum]
      rw [Finset.sum_congr rfl fun r _ => Finset.sum_comm]
      rw [Finset.sum_comm]
      refine Finset.sum_congr rfl fun k _ => ?_
      rw [Finset.sum_comm]
      refine Finset.sum_congr rfl fun r _ => Finset.sum_congr rfl fun c _ => ?_
      ring
    have h0 : 0 ≤ quad A x := by
      rw [hq]; exact Finset.sum_nonneg fun k _ => mul_self_nonneg _
    refine lt_of_le_of_ne h0 fun he => hx ?_
    have hz : ∀ k, ∑ r, x r * l r k = 0 := by
      intro k
      rw [hq] at he
      have := (Finset.sum_eq_zero_iff_of_nonneg fun k _ => mul_self_nonneg _).1 he.symm k (Finset.mem_univ k)
      exact mul_self_eq_zero.1 this
    have hinv := (C54_lower_inverse sq hsq A l hA hd).1
    funext i
    have e : x i = ∑ r, x r * (Matrix.of l * Matrix.of (cholLowerInverse l)) r i := by
      rw [hinv]; simp [Matrix.one_apply]
    rw [e]
    simp only [Matrix.mul_apply, Matrix.of_apply, Finset.mul_sum]
    rw [Finset.sum_comm]
    refine Finset.sum_eq_zero fun k _ => ?_
    simp only [← mul_assoc]
    rw [← Finset.sum_mul, hz k, zero_mul]
  · intro hp
    by_contra hn
    have hd : cholDecompose sq A = none := by simpa using hn
    rw [hd] at h
    obtain ⟨x, hx, hle⟩ := h
    exact absurd (hp x hx) (not_lt.2 hle)

/-- square root of the few rationals of the example -/
def sqEx (s : ℚ) : ℚ := if s = 4 then 2 else if s = 9 then 3 else 1

example :
    let A : M 3 ℚ := fun i j => ((#v[4, 2, -2, 2, 10, 2, -2, 2, 3] : Vector ℚ 9)[3 * i.1 + j.1]'(by omega))
    (cholDecompose sqEx A).isSome = true ∧ (cholDecompose sqEx A).map (fun l => (l 1 0, l 2 1, l 2 2)) = some (1, 1, 1) := by
  decide +kernel

/-- the assumption on the square root holds for real numbers -/
example : IsSqrt Real.sqrt := fun s h => ⟨Real.sqrt_pos.2 h, Real.mul_self_sqrt (le_of_lt h)⟩

end Verif.Mat
