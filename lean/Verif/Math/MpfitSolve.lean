import Verif.Math.MpfitQR
/-!
# The damped linear system of `mpfit`
-/
namespace Verif.Mpfit
open Verif

variable {K : Type} [Field K] [LinearOrder K] [IsStrictOrderedRing K]

/-- the rotation -/
theorem givens_spec {N : Num K} (hN : IsRoot N.sq) (r : K) {s : K} (hs : s ≠ 0) :
    (givens N r s).1 ^ 2 + (givens N r s).2 ^ 2 = 1 ∧ -(givens N r s).2 * r + (givens N r s).1 * s = 0 ∧
      ((givens N r s).1 * r + (givens N r s).2 * s) ^ 2 = r ^ 2 + s ^ 2 := by
  have main : ∀ g h : K, g ^ 2 + h ^ 2 = 1 → -h * r + g * s = 0 → (g * r + h * s) ^ 2 = r ^ 2 + s ^ 2 := by
    intro g h h1 h2
    linear_combination (r ^ 2 + s ^ 2) * h1 - (-h * r + g * s) * h2
  have key : ∀ t : K, (1 / 2 / N.sq (1 / 4 + 1 / 4 * t ^ 2)) ^ 2 * (1 + t ^ 2) = 1 := by
    intro t
    have hp : 0 < 1 / 4 + 1 / 4 * t ^ 2 := by positivity
    obtain ⟨_, h2⟩ := hN _ hp.le
    have h3 : N.sq (1 / 4 + 1 / 4 * t ^ 2) ^ 2 = 1 / 4 + 1 / 4 * t ^ 2 := by rw [sq, h2]
    rw [div_pow, h3]
    field_simp
    ring
  unfold givens
  by_cases h : |r| < |s|
  · rw [if_pos h]
    dsimp only
    have k := key (r / s)
    generalize 1 / 2 / N.sq (1 / 4 + 1 / 4 * (r / s) ^ 2) = sine at *
    have h1 : (sine * (r / s)) ^ 2 + sine ^ 2 = 1 := by linear_combination k
    have h2 : -sine * r + sine * (r / s) * s = 0 := by field_simp; ring
    exact ⟨h1, h2, main _ _ h1 h2⟩
  · rw [if_neg h]
    dsimp only
    have hr : r ≠ 0 := by
      rintro rfl
      rw [abs_zero] at h
      exact h (abs_pos.2 hs)
    have k := key (s / r)
    generalize 1 / 2 / N.sq (1 / 4 + 1 / 4 * (s / r) ^ 2) = cosine at *
    have h1 : cosine ^ 2 + (cosine * (s / r)) ^ 2 = 1 := by linear_combination k
    have h2 : -(cosine * (s / r)) * r + cosine * s = 0 := by field_simp; ring
    exact ⟨h1, h2, main _ _ h1 h2⟩

/-- the triangular matrix while the lines before `j` are done -/
def triS (j : Nat) (q : QS K) (k c : Nat) : K := if c < k then 0 else if k < c then q.r k c else if k < j then q.sdiag k else q.r k k

/-- the row that is eliminated -/
def rowS (n k : Nat) (q : QS K) (c : Nat) : K := if k ≤ c ∧ c < n then q.sdiag c else 0

omit [LinearOrder K] [IsStrictOrderedRing K] in
theorem sum_row {n k : Nat} (hk : k < n) {f g : Nat → K} (h : ∀ p, p ≠ k → f p = g p) :
    ∑ p ∈ Finset.range n, f p = ∑ p ∈ Finset.range n, g p + (f k - g k) := by
  rw [← Finset.add_sum_erase _ f (Finset.mem_range.2 hk), ← Finset.add_sum_erase _ g (Finset.mem_range.2 hk),
    Finset.sum_congr rfl fun p hp => h p (Finset.ne_of_mem_erase hp)]
  ring

/-- what holds in the inner loop -/
structure RInv (n j k : Nat) (G : Nat → Nat → K) (h0 : Nat → K) (q : QS K) : Prop where
  gram : ∀ i c, i < n → c < n → ∑ p ∈ Finset.range n, triS j q p i * triS j q p c + rowS n k q i * rowS n k q c = G i c
  rhs : ∀ i, i < n → ∑ p ∈ Finset.range n, triS j q p i * q.wa p + rowS n k q i * q.qtbpj = h0 i

theorem RInv.rotate {N : Num K} (hN : IsRoot N.sq) {n j k : Nat} {G : Nat → Nat → K} {h0 : Nat → K} {q : QS K} (h : RInv n j k G h0 q) (hjk : j ≤ k)
    (hk : k < n) : RInv n j (k + 1) G h0 (rotate N n q k) := by
  unfold Mpfit.rotate
  by_cases hz : q.sdiag k = 0
  · rw [if_pos hz]
    have e : ∀ c, rowS n (k + 1) q c = rowS n k q c := by
      intro c
      unfold rowS
      by_cases hc : c = k
      · subst hc
        rw [if_neg (by omega), if_pos ⟨le_refl _, hk⟩, hz]
      · by_cases hc' : k ≤ c ∧ c < n
        · rw [if_pos hc', if_pos (by omega)]
        · rw [if_neg hc', if_neg (by omega)]
    exact ⟨fun i c hi hc => by rw [e, e]; exact h.gram i c hi hc, fun i hi => by rw [e]; exact h.rhs i hi⟩
  · rw [if_neg hz]
    dsimp only
    obtain ⟨g1, g2, _⟩ := givens_spec hN (q.r k k) hz
    generalize (givens N (q.r k k) (q.sdiag k)).1 = g at *
    generalize (givens N (q.r k k) (q.sdiag k)).2 = t at *
    generalize hq' : (⟨fun p c => if p = k ∧ c = k then g * q.r k k + t * q.sdiag k
        else if p = k ∧ k < c ∧ c < n then g * q.r k c + t * q.sdiag c else q.r p c,
      fun c => if c = k then g * q.wa k + t * q.qtbpj else q.wa c,
      fun c => if k < c ∧ c < n then -t * q.r k c + g * q.sdiag c else q.sdiag c, -t * q.wa k + g * q.qtbpj⟩ : QS K) = q'
    have er : ∀ p c, q'.r p c = if p = k ∧ c = k then g * q.r k k + t * q.sdiag k
        else if p = k ∧ k < c ∧ c < n then g * q.r k c + t * q.sdiag c else q.r p c := fun p c => by rw [← hq']
    have ew : ∀ c, q'.wa c = if c = k then g * q.wa k + t * q.qtbpj else q.wa c := fun c => by rw [← hq']
    have es : ∀ c, q'.sdiag c = if k < c ∧ c < n then -t * q.r k c + g * q.sdiag c else q.sdiag c := fun c => by rw [← hq']
    have eb : q'.qtbpj = -t * q.wa k + g * q.qtbpj := by rw [← hq']
    have t1 : ∀ p, p ≠ k → ∀ c, triS j q' p c = triS j q p c := by
      intro p hp c
      unfold triS
      have er' : ∀ c, q'.r p c = q.r p c := fun c => by rw [er, if_neg fun hh => hp hh.1, if_neg fun hh => hp hh.1]
      rw [er', er', es]
      split
      · rfl
      · split
        · rfl
        · split
          · rw [if_neg (by omega)]
          · rfl
    have t2 : ∀ c, c < n → triS j q' k c = g * triS j q k c + t * rowS n k q c := by
      intro c hc
      unfold triS rowS
      by_cases h1 : c < k
      · rw [if_pos h1, if_pos h1, if_neg (by omega)]; ring
      · rw [if_neg h1, if_neg h1, if_pos (show k ≤ c ∧ c < n by omega)]
        by_cases h2 : k < c
        · rw [if_pos h2, if_pos h2, er, if_neg (show ¬ (k = k ∧ c = k) by omega), if_pos ⟨rfl, h2, hc⟩]
        · have hck : c = k := by omega
          subst hck
          rw [if_neg h2, if_neg h2, if_neg (show ¬ c < j by omega), if_neg (show ¬ c < j by omega), er, if_pos ⟨rfl, rfl⟩]
    have t3 : ∀ c, c < n → rowS n (k + 1) q' c = -t * triS j q k c + g * rowS n k q c := by
      intro c hc
      unfold triS rowS
      by_cases h1 : c < k
      · rw [if_pos h1, if_neg (by omega), if_neg (by omega)]; ring
      · rw [if_neg h1, if_pos (show k ≤ c ∧ c < n by omega)]
        by_cases h2 : k < c
        · rw [if_pos h2, if_pos (by omega), es, if_pos ⟨h2, hc⟩]
        · have hck : c = k := by omega
          subst hck
          rw [if_neg h2, if_neg (by omega), if_neg (by omega)]
          exact g2.symm
    refine ⟨?_, ?_⟩
    · intro i c hi hc
      rw [← h.gram i c hi hc, sum_row hk (g := fun p => triS j q p i * triS j q p c) (fun p hp => by rw [t1 p hp, t1 p hp]), t2 i hi, t2 c hc, t3 i hi, t3 c hc]
      linear_combination (triS j q k i * triS j q k c + rowS n k q i * rowS n k q c) * g1
    · intro i hi
      rw [← h.rhs i hi, sum_row hk (g := fun p => triS j q p i * q.wa p) (fun p hp => by rw [t1 p hp, ew, if_neg hp]), t2 i hi, t3 i hi, ew, if_pos rfl, eb]
      linear_combination (triS j q k i * q.wa k + rowS n k q i * q.qtbpj) * g1

omit [IsStrictOrderedRing K] in
/-- what the rotation does not change -/
theorem rotate_keep {N : Num K} {n k : Nat} {q : QS K} :
    (∀ p c, p ≠ k ∨ c < k → (rotate N n q k).r p c = q.r p c) ∧ ∀ c, c ≤ k → (rotate N n q k).sdiag c = q.sdiag c := by
  unfold rotate
  split
  · exact ⟨fun _ _ _ => rfl, fun _ _ => rfl⟩
  · refine ⟨?_, ?_⟩
    · intro p c hh
      dsimp only
      rw [if_neg (by omega), if_neg (by omega)]
    · intro c hc
      dsimp only
      rw [if_neg (by omega)]

theorem rotate_diag {N : Num K} (hN : IsRoot N.sq) {n k : Nat} {q : QS K} (hz : q.sdiag k ≠ 0) : (rotate N n q k).r k k ≠ 0 := by
  unfold rotate
  rw [if_neg hz]
  dsimp only
  rw [if_pos ⟨rfl, rfl⟩]
  intro h
  obtain ⟨_, _, h3⟩ := givens_spec hN (q.r k k) hz
  rw [h] at h3
  have : 0 < q.sdiag k ^ 2 := by positivity
  nlinarith [sq_nonneg (q.r k k)]

/-- the loop of the rotations -/
theorem rotate_fold {N : Num K} (hN : IsRoot N.sq) {n j : Nat} {G : Nat → Nat → K} {h0 : Nat → K} : ∀ (len k : Nat) (q : QS K), j ≤ k → k + len = n →
    RInv n j k G h0 q → let q' := (List.range' k len).foldl (rotate N n) q
      RInv n j n G h0 q' ∧ (∀ p c, p < k ∨ c < p → q'.r p c = q.r p c) ∧ ∀ c, c < k → q'.sdiag c = q.sdiag c := by
  intro len
  induction len with
  | zero =>
    intro k q _ hk h
    rw [Nat.add_zero] at hk
    subst hk
    exact ⟨h, fun _ _ _ => rfl, fun _ _ => rfl⟩
  | succ len ih =>
    intro k q hjk hk h
    rw [List.range'_succ, List.foldl_cons]
    obtain ⟨e1, e2, e3⟩ := ih (k + 1) (rotate N n q k) (by omega) (by omega) (h.rotate hN hjk (by omega))
    obtain ⟨r1, r2⟩ := rotate_keep (N := N) (n := n) (k := k) (q := q)
    refine ⟨e1, ?_, ?_⟩
    · intro p c hpc
      rw [e2 p c (by omega)]
      by_cases hp : p = k
      · subst hp
        exact r1 p c (Or.inr (by omega))
      · exact r1 p c (Or.inl hp)
    · intro c hc
      rw [e3 c (by omega), r2 c (by omega)]

/-- what holds after `j` eliminations -/
structure EInv (n : Nat) (r : Nat → Nat → K) (x d : Nat → K) (G : Nat → Nat → K) (h0 : Nat → K) (j : Nat) (q : QS K) : Prop where
  gram : ∀ i c, i < n → c < n → ∑ p ∈ Finset.range n, triS j q p i * triS j q p c = G i c + if i = c ∧ i < j then d i ^ 2 else 0
  rhs : ∀ i, i < n → ∑ p ∈ Finset.range n, triS j q p i * q.wa p = h0 i
  low : ∀ p c, c < p → q.r p c = r p c
  dia : ∀ p, p < j → q.r p p = x p
  ne : ∀ p, p < j → q.sdiag p ≠ 0

theorem EInv.elim {N : Num K} (hN : IsRoot N.sq) {n : Nat} {ipiv : Nat → Nat} {diag x : Nat → K} {r : Nat → Nat → K} {G : Nat → Nat → K} {h0 : Nat → K}
    {j : Nat} (hj : j < n) (hd : diag (ipiv j) ≠ 0) {q : QS K} (h : EInv n r x (fun p => diag (ipiv p)) G h0 j q) :
    (elim N n ipiv diag x (q, true) j).2 = true ∧ EInv n r x (fun p => diag (ipiv p)) G h0 (j + 1) (elim N n ipiv diag x (q, true) j).1 := by
  unfold Mpfit.elim
  rw [if_neg (by simp [hd])]
  refine ⟨rfl, ?_⟩
  dsimp only
  generalize hq0 : (⟨q.r, q.wa, fun k => if k < j then q.sdiag k else if k = j then diag (ipiv j) else 0, 0⟩ : QS K) = q0
  have er : q0.r = q.r := by rw [← hq0]
  have ew : q0.wa = q.wa := by rw [← hq0]
  have es : ∀ k, q0.sdiag k = if k < j then q.sdiag k else if k = j then diag (ipiv j) else 0 := fun k => by rw [← hq0]
  have eb : q0.qtbpj = 0 := by rw [← hq0]
  have et : ∀ p c, triS j q0 p c = triS j q p c := by
    intro p c
    unfold triS
    rw [er, es]
    split
    · rfl
    · split
      · rfl
      · split
        · rfl
        · rfl
  have erow : ∀ c, c < n → rowS n j q0 c = if c = j then diag (ipiv j) else 0 := by
    intro c hc
    unfold rowS
    by_cases hjc : j ≤ c
    · rw [if_pos ⟨hjc, hc⟩, es, if_neg (by omega)]
    · rw [if_neg (by omega), if_neg (by omega)]
  have hR : RInv n j j (fun i c => G i c + if i = c ∧ i < j + 1 then diag (ipiv i) ^ 2 else 0) h0 q0 := by
    refine ⟨?_, ?_⟩
    · intro i c hi hc
      simp only [et]
      rw [h.gram i c hi hc, erow i hi, erow c hc]
      by_cases h1 : i = c ∧ i < j
      · rw [if_pos h1, if_pos (show i = c ∧ i < j + 1 by omega), if_neg (show ¬ i = j by omega)]; ring
      · rw [if_neg h1]
        by_cases h2 : i = c ∧ i < j + 1
        · have h3 : i = j := by omega
          have h4 : c = j := by omega
          rw [if_pos h2, if_pos h3, if_pos h4, h3]; ring
        · rw [if_neg h2]
          by_cases h3 : i = j
          · rw [if_neg (show ¬ c = j by omega)]; ring
          · rw [if_neg h3]; ring
    · intro i hi
      simp only [et]
      rw [ew, h.rhs i hi, eb]; ring
  obtain ⟨f1, f2, f3⟩ := rotate_fold hN (n - j) j q0 (le_refl _) (by omega) hR
  -- the diagonal element
  have hne : ((List.range' j (n - j)).foldl (rotate N n) q0).r j j ≠ 0 := by
    obtain ⟨len, hlen⟩ : ∃ len, n - j = len + 1 := ⟨n - j - 1, by omega⟩
    rw [hlen, List.range'_succ, List.foldl_cons]
    have hs : q0.sdiag j ≠ 0 := by rw [es, if_neg (by omega), if_pos rfl]; exact hd
    obtain ⟨_, g2, _⟩ := rotate_fold hN len (j + 1) (rotate N n q0 j) (by omega) (by omega) (hR.rotate hN (le_refl _) hj)
    rw [g2 j j (by omega)]
    exact rotate_diag hN hs
  generalize (List.range' j (n - j)).foldl (rotate N n) q0 = q1 at *
  generalize hq2 : (⟨fun p c => if p = j ∧ c = j then x j else q1.r p c, q1.wa, fun k => if k = j then q1.r j j else q1.sdiag k, q1.qtbpj⟩ : QS K) = q2
  have er2 : ∀ p c, q2.r p c = if p = j ∧ c = j then x j else q1.r p c := fun p c => by rw [← hq2]
  have ew2 : q2.wa = q1.wa := by rw [← hq2]
  have es2 : ∀ k, q2.sdiag k = if k = j then q1.r j j else q1.sdiag k := fun k => by rw [← hq2]
  have et2 : ∀ p c, triS (j + 1) q2 p c = triS j q1 p c := by
    intro p c
    unfold triS
    rw [er2, er2, es2]
    by_cases h1 : c < p
    · rw [if_pos h1, if_pos h1]
    · rw [if_neg h1, if_neg h1]
      by_cases h2 : p < c
      · rw [if_pos h2, if_pos h2, if_neg (by omega)]
      · rw [if_neg h2, if_neg h2]
        by_cases h3 : p = j
        · subst h3
          rw [if_pos (by omega), if_pos rfl, if_neg (by omega)]
        · by_cases h4 : p < j
          · rw [if_pos (by omega), if_neg h3, if_pos h4]
          · rw [if_neg (by omega), if_neg (by omega), if_neg h4]
  have erow0 : ∀ c, rowS n n q1 c = 0 := fun c => by unfold rowS; rw [if_neg (by omega)]
  refine ⟨?_, ?_, ?_, ?_, ?_⟩
  · intro i c hi hc
    simp only [et2]
    have := f1.gram i c hi hc
    rw [erow0, zero_mul, add_zero] at this
    exact this
  · intro i hi
    simp only [et2]
    have := f1.rhs i hi
    rw [erow0, zero_mul, add_zero] at this
    rw [ew2]
    exact this
  · intro p c hpc
    rw [er2, if_neg (by omega), f2 p c (by omega), er]
    exact h.low p c hpc
  · intro p hp
    rw [er2]
    by_cases hpj : p = j
    · subst hpj
      rw [if_pos ⟨rfl, rfl⟩]
    · rw [if_neg (by omega), f2 p p (by omega), er]
      exact h.dia p (by omega)
  · intro p hp
    rw [es2]
    by_cases hpj : p = j
    · rw [if_pos hpj]
      exact hne
    · rw [if_neg hpj, f3 p (by omega), es, if_pos (by omega)]
      exact h.ne p (by omega)

/-! ### Triangular systems -/

omit [IsStrictOrderedRing K] in
/-- the backward substitution -/
theorem backSub_fold {n : Nat} {r : Nat → Nat → K} {sd w : Nat → K} (hs : ∀ j, j < n → sd j ≠ 0) : ∀ (k : Nat) (z : Nat → K), k ≤ n →
    (∀ j, k ≤ j → j < n → sd j * z j + ∑ c ∈ Finset.Ico (j + 1) n, r j c * z c = w j) → (∀ j, j < k → z j = w j) →
    let z' := (List.range k).reverse.foldl (fun wa j => fun c => if c = j then (wa j - ∑ k ∈ Finset.Ico (j + 1) n, r j k * wa k) / sd j else wa c) z
    (∀ j, j < n → sd j * z' j + ∑ c ∈ Finset.Ico (j + 1) n, r j c * z' c = w j) := by
  intro k
  induction k with
  | zero => intro z _ h _; exact fun j hj => h j (Nat.zero_le _) hj
  | succ k ih =>
    intro z hk h1 h2
    rw [List.range_succ, List.reverse_append, List.reverse_singleton, List.singleton_append, List.foldl_cons]
    refine ih _ (by omega) ?_ ?_
    · intro j hkj hj
      have hsum : ∀ (v : K), k ≤ j → ∑ c ∈ Finset.Ico (j + 1) n, r j c * (if c = k then v else z c) = ∑ c ∈ Finset.Ico (j + 1) n, r j c * z c := by
        intro v hkj
        refine Finset.sum_congr rfl fun c hc => ?_
        rw [Finset.mem_Ico] at hc
        rw [if_neg (by omega)]
      rw [hsum _ hkj]
      by_cases hjk : j = k
      · subst hjk
        rw [if_pos rfl, h2 j (by omega), mul_div_cancel₀ _ (hs j hj)]
        ring
      · rw [if_neg hjk]
        exact h1 j (by omega) hj
    · intro j hj
      rw [if_neg (by omega)]
      exact h2 j (by omega)

omit [IsStrictOrderedRing K] in
theorem backSub_spec {n : Nat} {q : QS K} (hs : ∀ j, j < n → q.sdiag j ≠ 0) :
    ∀ j, j < n → q.sdiag j * backSub n q j + ∑ c ∈ Finset.Ico (j + 1) n, q.r j c * backSub n q c = q.wa j := by
  have hn : ((List.range n).find? fun j => decide (q.sdiag j = 0)).getD n = n := by
    rw [List.find?_eq_none.2]
    · rfl
    · intro j hj
      simpa using hs j (List.mem_range.1 hj)
  unfold backSub
  rw [hn]
  have := backSub_fold (r := q.r) (w := q.wa) hs n (fun j => if n ≤ j then 0 else q.wa j) (le_refl _) (by omega) (fun j hj => by rw [if_neg (by omega)])
  exact this

omit [LinearOrder K] [IsStrictOrderedRing K] in
/-- the permutation of the solution -/
theorem unpiv_spec {n : Nat} {ipiv : Nat → Nat} (hp : Perm n ipiv) (x wa : Nat → K) : ∀ p, p < n → unpiv n ipiv x wa (ipiv p) = wa p := by
  unfold unpiv
  have key : ∀ k, k ≤ n → ∀ p, p < k → (List.range k).foldl (fun (x : Nat → K) p => fun c => if c = ipiv p then wa p else x c) x (ipiv p) = wa p := by
    intro k
    induction k with
    | zero => omega
    | succ k ih =>
      intro hk p hpk
      rw [List.range_succ, List.foldl_append, List.foldl_cons, List.foldl_nil]
      by_cases h : p = k
      · subst h
        rw [if_pos rfl]
      · rw [if_neg fun hh => h (hp.inj _ _ (by omega) (by omega) hh)]
        exact ih (by omega) p (by omega)
  exact fun p hpn => key n (le_refl _) p hpn

/-- the solution of the damped system, before it is permuted -/
theorem qrsolv_spec {N : Num K} (hN : IsRoot N.sq) {n : Nat} {ipiv : Nat → Nat} (hp : Perm n ipiv) {r : Nat → Nat → K} {diag qtf sdiag : Nat → K}
    (hd : ∀ p, p < n → diag (ipiv p) ≠ 0) :
    (∀ p c, c ≤ p → p < n → (qrsolv N n r ipiv diag qtf sdiag).1.r p c = r p c) ∧
    ∀ i, i < n → ∑ c ∈ Finset.range n, (∑ k ∈ Finset.range n, (if k ≤ i then r i k else 0) * (if k ≤ c then r c k else 0)) * (qrsolv N n r ipiv diag qtf sdiag).2 (ipiv c) +
      diag (ipiv i) ^ 2 * (qrsolv N n r ipiv diag qtf sdiag).2 (ipiv i) = ∑ k ∈ Finset.range (i + 1), r i k * qtf k := by
  unfold qrsolv
  dsimp only
  generalize hr1 : (fun p c => if p ≤ c ∧ c < n then r c p else r p c) = r1
  have er1 : ∀ p c, r1 p c = if p ≤ c ∧ c < n then r c p else r p c := fun p c => by rw [← hr1]
  have hx : (fun p => if p ≤ p ∧ p < n then r p p else r p p) = fun p => r1 p p := funext fun p => (er1 p p).symm
  rw [hx]
  have ht0 : ∀ p c, p < n → c < n → triS 0 (⟨r1, qtf, sdiag, 0⟩ : QS K) p c = if p ≤ c then r c p else 0 := by
    intro p c hpn hcn
    unfold triS
    dsimp only
    by_cases h1 : c < p
    · rw [if_pos h1, if_neg (by omega)]
    · rw [if_neg h1, if_pos (show p ≤ c by omega)]
      by_cases h2 : p < c
      · rw [if_pos h2, er1, if_pos ⟨by omega, hcn⟩]
      · have : p = c := by omega
        subst this
        rw [if_neg h2, if_neg (by omega), er1, if_pos ⟨le_refl _, hcn⟩]
  have key : ∀ j, j ≤ n → ((List.range j).foldl (elim N n ipiv diag fun p => r1 p p) ((⟨r1, qtf, sdiag, 0⟩ : QS K), true)).2 = true ∧
      EInv n r1 (fun p => r1 p p) (fun p => diag (ipiv p)) (fun i c => ∑ k ∈ Finset.range n, (if k ≤ i then r i k else 0) * (if k ≤ c then r c k else 0))
        (fun i => ∑ k ∈ Finset.range (i + 1), r i k * qtf k) j
        ((List.range j).foldl (elim N n ipiv diag fun p => r1 p p) ((⟨r1, qtf, sdiag, 0⟩ : QS K), true)).1 := by
    intro j
    induction j with
    | zero =>
      intro _
      refine ⟨rfl, ?_, ?_, fun _ _ _ => rfl, by omega, by omega⟩
      · intro i c hi hc
        rw [if_neg (by omega), add_zero]
        refine Finset.sum_congr rfl fun k hk => ?_
        rw [Finset.mem_range] at hk
        exact congrArg₂ (· * ·) (ht0 k i hk hi) (ht0 k c hk hc)
      · intro i hi
        rw [← Finset.sum_subset (Finset.range_subset_range.2 (show i + 1 ≤ n by omega))]
        · refine Finset.sum_congr rfl fun k hk => ?_
          rw [Finset.mem_range] at hk
          refine congrArg₂ (· * ·) ((ht0 k i (by omega) hi).trans ?_) rfl
          rw [if_pos (by omega)]
        · intro k hk hk'
          rw [Finset.mem_range] at hk hk'
          have : triS 0 (⟨r1, qtf, sdiag, 0⟩ : QS K) k i = 0 := by rw [ht0 k i hk hi, if_neg (by omega)]
          exact mul_eq_zero_of_left this _
    | succ j ih =>
      intro hj
      obtain ⟨i1, i2⟩ := ih (by omega)
      rw [List.range_succ, List.foldl_append, List.foldl_cons, List.foldl_nil]
      generalize hu : (List.range j).foldl (elim N n ipiv diag fun p => r1 p p) ((⟨r1, qtf, sdiag, 0⟩ : QS K), true) = u at *
      obtain ⟨u1, u2⟩ := u
      dsimp only at i1 i2
      subst i1
      exact i2.elim hN (by omega) (hd j (by omega))
  obtain ⟨_, hE⟩ := key n (le_refl _)
  generalize ((List.range n).foldl (elim N n ipiv diag fun p => r1 p p) ((⟨r1, qtf, sdiag, 0⟩ : QS K), true)).1 = q at *
  refine ⟨?_, ?_⟩
  · intro p c hcp hpn
    by_cases h : c = p
    · subst h
      rw [hE.dia c hpn, er1, if_pos ⟨le_refl _, hpn⟩]
    · rw [hE.low p c (by omega), er1, if_neg (by omega)]
  · intro i hi
    have hz := backSub_spec hE.ne
    have hu := unpiv_spec hp (fun p => r1 p p) (backSub n q)
    generalize backSub n q = z at *
    rw [hu i hi, Finset.sum_congr rfl fun c hc => by rw [hu c (Finset.mem_range.1 hc)]]
    -- the lines of the triangular system
    have hline : ∀ p, p < n → ∑ c ∈ Finset.range n, triS n q p c * z c = q.wa p := by
      intro p hpn
      rw [← hz p hpn]
      have e1 : ∑ c ∈ Finset.range n, triS n q p c * z c = ∑ c ∈ Finset.Ico p n, triS n q p c * z c := by
        rw [Finset.range_eq_Ico]
        refine (Finset.sum_subset (Finset.Ico_subset_Ico (Nat.zero_le _) (le_refl _)) ?_).symm
        intro c hc hc'
        rw [Finset.mem_Ico] at hc hc'
        unfold triS
        rw [if_pos (by omega), zero_mul]
      rw [e1, Finset.sum_eq_sum_Ico_succ_bot hpn]
      congr 1
      · unfold triS
        rw [if_neg (by omega), if_neg (by omega), if_pos hpn]
      · refine Finset.sum_congr rfl fun c hc => ?_
        rw [Finset.mem_Ico] at hc
        unfold triS
        rw [if_neg (by omega), if_pos (by omega)]
    have e : ∑ c ∈ Finset.range n, (∑ p ∈ Finset.range n, triS n q p i * triS n q p c) * z c = ∑ p ∈ Finset.range n, triS n q p i * q.wa p := by
      have : ∀ c ∈ Finset.range n, (∑ p ∈ Finset.range n, triS n q p i * triS n q p c) * z c = ∑ p ∈ Finset.range n, triS n q p i * (triS n q p c * z c) := by
        intro c _
        rw [Finset.sum_mul]
        exact Finset.sum_congr rfl fun p _ => mul_assoc _ _ _
      rw [Finset.sum_congr rfl this, Finset.sum_comm]
      refine Finset.sum_congr rfl fun p hp => ?_
      rw [← Finset.mul_sum, hline p (Finset.mem_range.1 hp)]
    rw [hE.rhs i hi] at e
    rw [← e]
    have : ∀ c ∈ Finset.range n, (∑ p ∈ Finset.range n, triS n q p i * triS n q p c) * z c =
        (∑ k ∈ Finset.range n, (if k ≤ i then r i k else 0) * (if k ≤ c then r c k else 0)) * z c + if c = i then diag (ipiv i) ^ 2 * z i else 0 := by
      intro c hc
      rw [hE.gram i c hi (Finset.mem_range.1 hc), add_mul]
      congr 1
      by_cases hci : c = i
      · subst hci
        rw [if_pos ⟨rfl, hi⟩, if_pos rfl]
      · rw [if_neg fun h => hci h.1.symm, if_neg hci, zero_mul]
    rw [Finset.sum_congr rfl this, Finset.sum_add_distrib]
    congr 1
    rw [Finset.sum_ite_eq' (Finset.range n) i fun _ => diag (ipiv i) ^ 2 * z i, if_pos (Finset.mem_range.2 hi)]

end Verif.Mpfit
