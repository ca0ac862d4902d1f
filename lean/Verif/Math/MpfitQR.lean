import Verif.Math.MpfitAlg
import Mathlib.Algebra.BigOperators.Ring.Finset
import Mathlib.Algebra.BigOperators.Field
import Mathlib.Algebra.Order.BigOperators.Group.List
import Mathlib.Tactic.Ring
import Mathlib.Tactic.Positivity
import Mathlib.Tactic.FieldSimp
import Mathlib.Tactic.Linarith
import Mathlib.Tactic.LinearCombination
/-!
# The factorization of the Jacobian in `mpfit`
-/
namespace Verif.Mpfit
open Verif

variable {K : Type} [Field K] [LinearOrder K] [IsStrictOrderedRing K]

/-- the square root is one -/
def IsRoot (sq : K → K) : Prop := ∀ s, 0 ≤ s → 0 ≤ sq s ∧ sq s * sq s = s

omit [IsStrictOrderedRing K] in
theorem foldl_min_le (l : List K) (a : K) : l.foldl min a ≤ a ∧ ∀ b ∈ l, l.foldl min a ≤ b := by
  induction l generalizing a with
  | nil => exact ⟨le_refl _, by simp⟩
  | cons c l ih =>
    rw [List.foldl_cons]
    obtain ⟨h1, h2⟩ := ih (min a c)
    refine ⟨h1.trans (min_le_left _ _), ?_⟩
    intro b hb
    rcases List.mem_cons.1 hb with hb | hb
    · subst hb; exact h1.trans (min_le_right _ _)
    · exact h2 b hb

omit [IsStrictOrderedRing K] in
theorem le_foldl_max (l : List K) (a : K) : a ≤ l.foldl max a ∧ ∀ b ∈ l, b ≤ l.foldl max a := by
  induction l generalizing a with
  | nil => exact ⟨le_refl _, by simp⟩
  | cons c l ih =>
    rw [List.foldl_cons]
    obtain ⟨h1, h2⟩ := ih (max a c)
    refine ⟨(le_max_left _ _).trans h1, ?_⟩
    intro b hb
    rcases List.mem_cons.1 hb with hb | hb
    · subst hb; exact (le_max_right _ _).trans h1
    · exact h2 b hb

theorem sum_sq_nonneg (l : List K) : 0 ≤ (l.map fun x => x ^ 2).sum :=
  List.sum_nonneg fun x hx => by
    obtain ⟨y, _, rfl⟩ := List.mem_map.1 hx
    positivity

theorem sum_sq_div (l : List K) {c : K} (hc : c ≠ 0) : c ^ 2 * (l.map fun x => (x / c) ^ 2).sum = (l.map fun x => x ^ 2).sum := by
  induction l with
  | nil => simp
  | cons a l ih =>
    rw [List.map_cons, List.map_cons, List.sum_cons, List.sum_cons, mul_add, ih]
    congr 1
    field_simp

/-- the norm is the square root of the sum of the squares -/
theorem vnorm_spec {N : Num K} (hN : IsRoot N.sq) (l : List K) : 0 ≤ vnorm N l ∧ vnorm N l ^ 2 = (l.map fun x => x ^ 2).sum := by
  cases l with
  | nil => simp [vnorm]
  | cons a l =>
    rw [vnorm]
    generalize hmx : max |l.foldl min a| |l.foldl max a| = mx
    have hmx0 : 0 ≤ mx := by rw [← hmx]; exact (abs_nonneg _).trans (le_max_left _ _)
    split
    · rename_i h0
      have h1 : l.foldl min a = 0 := by
        have := le_max_left |l.foldl min a| |l.foldl max a|
        rw [hmx, h0] at this
        exact abs_eq_zero.1 (le_antisymm this (abs_nonneg _))
      have h2 : l.foldl max a = 0 := by
        have := le_max_right |l.foldl min a| |l.foldl max a|
        rw [hmx, h0] at this
        exact abs_eq_zero.1 (le_antisymm this (abs_nonneg _))
      obtain ⟨m1, m2⟩ := foldl_min_le l a
      obtain ⟨m3, m4⟩ := le_foldl_max l a
      rw [h1] at m1 m2
      rw [h2] at m3 m4
      refine ⟨le_refl _, ?_⟩
      rw [List.sum_eq_zero]
      · simp
      · intro x hx
        obtain ⟨y, hy, rfl⟩ := List.mem_map.1 hx
        have : y = 0 := by
          rcases List.mem_cons.1 hy with hy | hy
          · subst hy; exact le_antisymm m3 m1
          · exact le_antisymm (m4 y hy) (m2 y hy)
        rw [this]; ring
    · rename_i h0
      split
      · obtain ⟨h1, h2⟩ := hN _ (sum_sq_nonneg ((a :: l).map fun x => x / mx))
        rw [List.map_map] at h1 h2
        have he : ((fun x : K => x ^ 2) ∘ fun x => x / mx) = fun x => (x / mx) ^ 2 := rfl
        rw [he] at h1 h2
        refine ⟨mul_nonneg hmx0 h1, ?_⟩
        rw [← sum_sq_div (a :: l) h0, mul_pow]
        congr 1
        rw [sq, h2]
      · obtain ⟨h1, h2⟩ := hN _ (sum_sq_nonneg (a :: l))
        exact ⟨h1, by rw [sq, h2]⟩

omit [IsStrictOrderedRing K] in
theorem sum_tail (v : Nat → K) (i m : Nat) (f : K → K) : ((tail v i m).map f).sum = ∑ c ∈ Finset.Ico i m, f (v c) := by
  unfold tail
  rw [List.map_map]
  rfl

theorem vnorm_tail {N : Num K} (hN : IsRoot N.sq) (v : Nat → K) (i m : Nat) :
    0 ≤ vnorm N (tail v i m) ∧ vnorm N (tail v i m) * vnorm N (tail v i m) = dot i m v v := by
  obtain ⟨h1, h2⟩ := vnorm_spec hN (tail v i m)
  refine ⟨h1, ?_⟩
  rw [← sq, h2, sum_tail]
  exact Finset.sum_congr rfl fun c _ => sq (v c)

/-! ### The reflections -/

section
omit [LinearOrder K] [IsStrictOrderedRing K]

theorem dot_congr {i m : Nat} {v v' w w' : Nat → K} (hv : ∀ c, i ≤ c → c < m → v c = v' c) (hw : ∀ c, i ≤ c → c < m → w c = w' c) :
    dot i m v w = dot i m v' w' := by
  unfold dot
  refine Finset.sum_congr rfl fun c hc => ?_
  rw [Finset.mem_Ico] at hc
  rw [hv c hc.1 hc.2, hw c hc.1 hc.2]

theorem dot_comm (i m : Nat) (v w : Nat → K) : dot i m v w = dot i m w v := by
  unfold dot
  exact Finset.sum_congr rfl fun c _ => mul_comm _ _

/-- a reflection keeps scalar products -/
theorem reflect_dot {i m : Nat} {v : Nat → K} (h0 : v i ≠ 0) (hv : dot i m v v = 2 * v i) (w w' : Nat → K) :
    dot i m (reflect i m v w) (reflect i m v w') = dot i m w w' := by
  unfold reflect
  generalize hd : dot i m w v = d
  generalize hd' : dot i m w' v = d'
  have : dot i m (fun c => w c - v c * d / v i) (fun c => w' c - v c * d' / v i) =
      dot i m w w' - d' / v i * dot i m w v - d / v i * dot i m w' v + d * d' / v i ^ 2 * dot i m v v := by
    unfold dot
    rw [Finset.mul_sum, Finset.mul_sum, Finset.mul_sum, ← Finset.sum_sub_distrib, ← Finset.sum_sub_distrib, ← Finset.sum_add_distrib]
    refine Finset.sum_congr rfl fun c _ => ?_
    field_simp
    ring
  rw [this, hd, hd', hv]
  field_simp
  ring

/-- the whole vector: the elements before `i` are not changed -/
def house (m : Nat) (v : Nat → K) (i : Nat) (w : Nat → K) : Nat → K := fun c => if i ≤ c then reflect i m v w c else w c

theorem dot_split {i m : Nat} (h : i ≤ m) (v w : Nat → K) : dot 0 m v w = dot 0 i v w + dot i m v w := by
  unfold dot
  exact (Finset.sum_Ico_consecutive _ (Nat.zero_le i) h).symm

theorem house_dot {i m : Nat} (hi : i ≤ m) {v : Nat → K} (h0 : v i ≠ 0) (hv : dot i m v v = 2 * v i) (w w' : Nat → K) :
    dot 0 m (house m v i w) (house m v i w') = dot 0 m w w' := by
  rw [dot_split hi, dot_split hi w w', ← reflect_dot h0 hv w w']
  congr 1
  · refine dot_congr (fun c _ hc => ?_) (fun c _ hc => ?_)
    · unfold house; rw [if_neg (by omega)]
    · unfold house; rw [if_neg (by omega)]
  · refine dot_congr (fun c hc _ => ?_) (fun c hc _ => ?_)
    · unfold house; rw [if_pos hc]
    · unfold house; rw [if_pos hc]

theorem house_congr {i m : Nat} {v v' w w' : Nat → K} (hv : ∀ c, i ≤ c → c < m → v c = v' c) (hw : ∀ c, c < m → w c = w' c) (hi : i < m) :
    ∀ c, c < m → house m v i w c = house m v' i w' c := by
  intro c hc
  unfold house reflect
  split
  · rename_i h
    rw [hw c hc, hv c h hc, hv i (le_refl _) hi, dot_congr (fun c _ h2 => hw c h2) hv]
  · exact hw c hc

/-- a reflection changes nothing in a vector that ends before -/
theorem house_short {i m : Nat} {v w : Nat → K} (hw : ∀ c, i ≤ c → c < m → w c = 0) : ∀ c, c < m → house m v i w c = w c := by
  intro c hc
  unfold house reflect
  split
  · have : dot i m w v = 0 := by
      unfold dot
      refine Finset.sum_eq_zero fun c hc => ?_
      rw [Finset.mem_Ico] at hc
      rw [hw c hc.1 hc.2, zero_mul]
    rw [this]
    simp
  · rfl

/-- the product with the transpose of `Q`: the reflections one after the other -/
def applyQ (m : Nat) (a : Nat → Nat → K) (ipiv : Nat → Nat) [DecidableEq K] (k : Nat) (w : Nat → K) : Nat → K :=
  (List.range k).foldl (fun w p => if a (ipiv p) p ≠ 0 then house m (a (ipiv p)) p w else w) w

end

/-- the vector of the reflection -/
theorem hvec_spec {N : Num K} (hN : IsRoot N.sq) {m i : Nat} (hi : i < m) {y : Nat → K} (h0 : ajnorm N m i y ≠ 0) :
    let v := hvec (ajnorm N m i y) i y
    v i ≠ 0 ∧ dot i m v v = 2 * v i ∧ ∀ c, i ≤ c → c < m → reflect i m v y c = if c = i then -ajnorm N m i y else 0 := by
  obtain ⟨n1, n2⟩ := vnorm_tail hN y i m
  generalize haj : ajnorm N m i y = aj at *
  have hsq : aj * aj = dot i m y y := by
    rw [← haj, ← n2]
    unfold ajnorm
    split <;> ring
  have hsign : 0 ≤ y i / aj := by
    rw [← haj]
    unfold ajnorm
    split
    · rename_i h
      exact div_nonneg_of_nonpos h.le (by linarith)
    · rename_i h
      exact div_nonneg (not_lt.1 h) n1
  intro v
  have hv : v i = y i / aj + 1 := by simp [v, hvec]
  have hvi : 0 < v i := by rw [hv]; linarith
  have hyv : dot i m y v = aj + y i := by
    have : dot i m y v = dot i m y y / aj + y i := by
      unfold dot
      rw [Finset.sum_div]
      have : ∀ c ∈ Finset.Ico i m, y c * v c = y c * y c / aj + if c = i then y c else 0 := by
        intro c _
        simp only [v, hvec]
        split <;> ring
      rw [Finset.sum_congr rfl this, Finset.sum_add_distrib]
      congr 1
      rw [Finset.sum_ite_eq' (Finset.Ico i m) i y, if_pos (by rw [Finset.mem_Ico]; omega)]
    rw [this, ← hsq]
    field_simp
  have hvv : dot i m v v = 2 * v i := by
    have : dot i m v v = dot i m y v / aj + v i := by
      unfold dot
      rw [Finset.sum_div]
      have : ∀ c ∈ Finset.Ico i m, v c * v c = y c * v c / aj + if c = i then v c else 0 := by
        intro c _
        simp only [v, hvec]
        split <;> ring
      rw [Finset.sum_congr rfl this, Finset.sum_add_distrib]
      congr 1
      rw [Finset.sum_ite_eq' (Finset.Ico i m) i v, if_pos (by rw [Finset.mem_Ico]; omega)]
    rw [this, hyv, hv]
    field_simp
    ring
  refine ⟨hvi.ne', hvv, ?_⟩
  intro c hc hcm
  unfold reflect
  rw [hyv]
  have e : v c * (aj + y i) / v i = v c * aj := by
    rw [div_eq_iff hvi.ne', hv]
    field_simp
    ring
  rw [e]
  simp only [v, hvec]
  split
  · field_simp
    ring
  · field_simp
    ring

/-! ### The rows -/

section
omit [IsStrictOrderedRing K]

/-- `ipiv` is a permutation of the rows -/
structure Perm (n : Nat) (ipiv : Nat → Nat) : Prop where
  lt : ∀ p, p < n → ipiv p < n
  inj : ∀ p q, p < n → q < n → ipiv p = ipiv q → p = q

theorem argmax_range (v : Nat → K) {i n : Nat} (hi : i < n) : i ≤ argmax v i n ∧ argmax v i n < n := by
  unfold argmax
  have key : ∀ (l : List Nat) (b : Nat), (i ≤ b ∧ b < n) → (∀ k ∈ l, i ≤ k ∧ k < n) →
      i ≤ l.foldl (fun b k => if v b < v k then k else b) b ∧ l.foldl (fun b k => if v b < v k then k else b) b < n := by
    intro l
    induction l with
    | nil => intro b hb _; exact hb
    | cons a l ih =>
      intro b hb hl
      rw [List.foldl_cons]
      refine ih _ ?_ fun k hk => hl k (by simp [hk])
      split
      · exact hl a (by simp)
      · exact hb
  refine key _ i ⟨le_refl _, hi⟩ ?_
  intro k hk
  rw [List.mem_range'_1] at hk
  omega

/-- the exchange of rows -/
theorem pivot_spec {n i : Nat} (hi : i < n) (s : QF K) (hs : Perm n s.ipiv) :
    Perm n (pivot n i s).ipiv ∧ (pivot n i s).a = s.a ∧ (∀ p, p < i → (pivot n i s).ipiv p = s.ipiv p ∧ (pivot n i s).rdiag p = s.rdiag p) ∧
      ∀ p, i ≤ p → p < n → ∃ q, i ≤ q ∧ q < n ∧ (pivot n i s).ipiv p = s.ipiv q := by
  obtain ⟨h1, h2⟩ := argmax_range s.rdiag hi
  unfold pivot
  dsimp only
  split
  · exact ⟨hs, rfl, fun p _ => ⟨rfl, rfl⟩, fun p h3 h4 => ⟨p, h3, h4, rfl⟩⟩
  · rename_i hne
    generalize argmax s.rdiag i n = k at *
    refine ⟨⟨?_, ?_⟩, rfl, ?_, ?_⟩
    · intro p hp
      dsimp only
      split
      · exact hs.lt _ h2
      · split
        · exact hs.lt _ hi
        · exact hs.lt _ hp
    · intro p q hp hq hpq
      dsimp only at hpq
      split at hpq
      · rename_i hpi
        split at hpq
        · omega
        · split at hpq
          · have := hs.inj _ _ h2 hi hpq
            omega
          · have := hs.inj _ _ h2 hq hpq
            omega
      · split at hpq
        · split at hpq
          · have := hs.inj _ _ hi h2 hpq
            omega
          · split at hpq
            · omega
            · have := hs.inj _ _ hi hq hpq
              omega
        · split at hpq
          · have := hs.inj _ _ hp h2 hpq
            omega
          · split at hpq
            · have := hs.inj _ _ hp hi hpq
              omega
            · exact hs.inj _ _ hp hq hpq
    · intro p hp
      dsimp only
      rw [if_neg (by omega), if_neg (by omega), if_neg (by omega)]
      exact ⟨rfl, rfl⟩
    · intro p h3 h4
      dsimp only
      split
      · exact ⟨k, h1, h2, rfl⟩
      · split
        · exact ⟨i, le_refl _, hi, rfl⟩
        · exact ⟨p, h3, h4, rfl⟩

/-- the loop on the rows -/
theorem rowStep_fold (N : Num K) (n m i : Nat) {v : Nat → K} (hv : v i ≠ 0) :
    ∀ (l : List Nat) (s : QF K), l.Nodup → (∀ k ∈ l, k < n) → Perm n s.ipiv →
      (l.foldl (rowStep N m i v) s).ipiv = s.ipiv ∧ (∀ p, p ∉ l → (l.foldl (rowStep N m i v) s).rdiag p = s.rdiag p) ∧
        (∀ p, p < n → p ∉ l → (l.foldl (rowStep N m i v) s).a (s.ipiv p) = s.a (s.ipiv p)) ∧
        ∀ p ∈ l, ∀ c, (l.foldl (rowStep N m i v) s).a (s.ipiv p) c = if i ≤ c then reflect i m v (s.a (s.ipiv p)) c else s.a (s.ipiv p) c := by
  intro l
  induction l with
  | nil => intro s _ _ _; exact ⟨rfl, fun _ _ => rfl, fun _ _ _ => rfl, by simp⟩
  | cons k l ih =>
    intro s hl hn hs
    obtain ⟨hk, hl⟩ := List.nodup_cons.1 hl
    rw [List.foldl_cons]
    have e1 : (rowStep N m i v s k).ipiv = s.ipiv := rfl
    have e2 : ∀ p, p ≠ k → (rowStep N m i v s k).rdiag p = s.rdiag p := fun p hp => by
      unfold rowStep
      dsimp only
      rw [if_neg hp]
    have e3 : ∀ p, p < n → p ≠ k → (rowStep N m i v s k).a (s.ipiv p) = s.a (s.ipiv p) := fun p hp hpk => by
      unfold rowStep
      dsimp only
      rw [if_pos hv]
      funext c
      unfold setTail
      rw [if_neg fun h => hpk (hs.inj _ _ hp (hn k (by simp)) h.1)]
    have e4 : ∀ c, (rowStep N m i v s k).a (s.ipiv k) c = if i ≤ c then reflect i m v (s.a (s.ipiv k)) c else s.a (s.ipiv k) c := fun c => by
      unfold rowStep
      dsimp only
      rw [if_pos hv]
      unfold setTail
      by_cases hc : i ≤ c
      · rw [if_pos ⟨rfl, hc⟩, if_pos hc]
      · rw [if_neg fun h => hc h.2, if_neg hc]
    obtain ⟨f1, f2, f3, f4⟩ := ih (rowStep N m i v s k) hl (fun k' hk' => hn k' (by simp [hk'])) (e1 ▸ hs)
    rw [e1] at f1 f3 f4
    refine ⟨f1, ?_, ?_, ?_⟩
    · intro p hp
      rw [List.mem_cons, not_or] at hp
      rw [f2 p hp.2, e2 p hp.1]
    · intro p hp hpl
      rw [List.mem_cons, not_or] at hpl
      rw [f3 p hp hpl.2, e3 p hp hpl.1]
    · intro p hp c
      rcases List.mem_cons.1 hp with hp | hp
      · subst hp
        rw [f3 p (hn p (by simp)) hk, e4]
      · have hpk : p ≠ k := fun h => hk (h ▸ hp)
        have hpn : p < n := hn p (by simp [hp])
        rw [f4 p hp c, e3 p hpn hpk]

theorem applyQ_succ (m : Nat) (a : Nat → Nat → K) (ipiv : Nat → Nat) (k : Nat) (w : Nat → K) :
    applyQ m a ipiv (k + 1) w = if a (ipiv k) k ≠ 0 then house m (a (ipiv k)) k (applyQ m a ipiv k w) else applyQ m a ipiv k w := by
  unfold applyQ
  rw [List.range_succ, List.foldl_append]
  rfl

theorem applyQ_congr {m : Nat} {a a' : Nat → Nat → K} {ipiv ipiv' : Nat → Nat} {k : Nat} (h1 : ∀ p, p < k → ipiv' p = ipiv p)
    (h2 : ∀ p, p < k → a' (ipiv p) = a (ipiv p)) (w : Nat → K) : applyQ m a' ipiv' k w = applyQ m a ipiv k w := by
  induction k with
  | zero => rfl
  | succ k ih =>
    rw [applyQ_succ, applyQ_succ, h1 k (by omega), h2 k (by omega), ih (fun p hp => h1 p (by omega)) (fun p hp => h2 p (by omega))]

end

/-! ### The factorization -/

/-- what holds after `i` steps -/
structure FInv (n m : Nat) (a0 : Nat → Nat → K) (i : Nat) (s : QF K) : Prop where
  perm : Perm n s.ipiv
  unit : ∀ p, p < i → s.a (s.ipiv p) p ≠ 0 → dot p m (s.a (s.ipiv p)) (s.a (s.ipiv p)) = 2 * s.a (s.ipiv p) p
  rest : ∀ k, i ≤ k → k < n → ∀ c, c < m → s.a (s.ipiv k) c = applyQ m s.a s.ipiv i (a0 (s.ipiv k)) c
  done : ∀ k, k < i → ∀ c, c < m → applyQ m s.a s.ipiv i (a0 (s.ipiv k)) c = if c < k then s.a (s.ipiv k) c else if c = k then s.rdiag k else 0

omit [IsStrictOrderedRing K] in
theorem FInv.pivot {n m : Nat} {a0 : Nat → Nat → K} {i : Nat} {s : QF K} (h : FInv n m a0 i s) (hi : i < n) : FInv n m a0 i (pivot n i s) := by
  obtain ⟨e1, e2, e3, e4⟩ := pivot_spec hi s h.perm
  have hQ : ∀ w, applyQ m (Mpfit.pivot n i s).a (Mpfit.pivot n i s).ipiv i w = applyQ m s.a s.ipiv i w :=
    fun w => applyQ_congr (fun p hp => (e3 p hp).1) (fun p _ => by rw [e2]) w
  refine ⟨e1, ?_, ?_, ?_⟩
  · intro p hp
    rw [(e3 p hp).1, e2]
    exact h.unit p hp
  · intro k hk hkn c hc
    obtain ⟨q, q1, q2, q3⟩ := e4 k hk hkn
    rw [q3, e2, ← e2, hQ, e2]
    exact h.rest q q1 q2 c hc
  · intro k hk c hc
    rw [hQ, (e3 k hk).1, (e3 k hk).2, e2]
    exact h.done k hk c hc

theorem FInv.step {N : Num K} (hN : IsRoot N.sq) {n m : Nat} (hnm : n ≤ m) {a0 : Nat → Nat → K} {i : Nat} {s : QF K} (h : FInv n m a0 i s) (hi : i < n) :
    FInv n m a0 (i + 1) (qrStep N n m s i) := by
  unfold qrStep
  replace h := h.pivot hi
  generalize Mpfit.pivot n i s = s at h ⊢
  have him : i < m := by omega
  have hbelow : ∀ k, k < i → ∀ c, i ≤ c → c < m → applyQ m s.a s.ipiv i (a0 (s.ipiv k)) c = 0 := by
    intro k hk c hc hcm
    rw [h.done k hk c hcm, if_neg (by omega), if_neg (by omega)]
  unfold qrReflect
  dsimp only
  by_cases haj : ajnorm N m i (s.a (s.ipiv i)) ≠ 0
  · rw [if_pos haj]
    obtain ⟨v1, v2, v3⟩ := hvec_spec hN him haj
    generalize hv : hvec (ajnorm N m i (s.a (s.ipiv i))) i (s.a (s.ipiv i)) = v at *
    have hset : ∀ p, p < n → p ≠ i → setTail s.a (s.ipiv i) i v (s.ipiv p) = s.a (s.ipiv p) := fun p hp hpi => by
      funext c
      unfold setTail
      rw [if_neg fun hh => hpi (h.perm.inj _ _ hp hi hh.1)]
    have hseti : ∀ c, setTail s.a (s.ipiv i) i v (s.ipiv i) c = if i ≤ c then v c else s.a (s.ipiv i) c := fun c => by
      unfold setTail
      by_cases hc : i ≤ c
      · rw [if_pos ⟨rfl, hc⟩, if_pos hc]
      · rw [if_neg fun h => hc h.2, if_neg hc]
    have hmem : ∀ p, p ∈ List.range' (i + 1) (n - (i + 1)) ↔ i < p ∧ p < n := fun p => by
      rw [List.mem_range'_1]; omega
    obtain ⟨f1, f2, f3, f4⟩ := rowStep_fold N n m i v1 (List.range' (i + 1) (n - (i + 1))) { s with a := setTail s.a (s.ipiv i) i v }
      List.nodup_range' (fun k hk => ((hmem k).1 hk).2) h.perm
    generalize (List.range' (i + 1) (n - (i + 1))).foldl (rowStep N m i v) { s with a := setTail s.a (s.ipiv i) i v } = t at *
    dsimp only at f1 f2 f3 f4
    have ga : ∀ p, p < i → t.a (s.ipiv p) = s.a (s.ipiv p) := fun p hp => by
      rw [f3 p (by omega) (by rw [hmem]; omega), hset p (by omega) (by omega)]
    have gi : ∀ c, t.a (s.ipiv i) c = if i ≤ c then v c else s.a (s.ipiv i) c := fun c => by
      rw [f3 i hi (by rw [hmem]; omega), hseti]
    have gk : ∀ p, i < p → p < n → ∀ c, t.a (s.ipiv p) c = house m v i (s.a (s.ipiv p)) c := fun p h1 h2 c => by
      rw [f4 p ((hmem p).2 ⟨h1, h2⟩) c, hset p h2 (by omega)]
      rfl
    have gii : t.a (s.ipiv i) i = v i := by rw [gi, if_pos (le_refl _)]
    have hQi : ∀ w, applyQ m t.a s.ipiv i w = applyQ m s.a s.ipiv i w := fun w => applyQ_congr (fun _ _ => rfl) ga w
    have hQ : ∀ w c, c < m → applyQ m t.a s.ipiv (i + 1) w c = house m v i (applyQ m s.a s.ipiv i w) c := fun w c hc => by
      rw [applyQ_succ, hQi, if_pos (by rw [gii]; exact v1)]
      exact house_congr (fun c h1 h2 => by rw [gi, if_pos h1]) (fun _ _ => rfl) him c hc
    refine ⟨?_, ?_, ?_, ?_⟩
    · show Perm n t.ipiv
      rw [f1]; exact h.perm
    · intro p hp
      show t.a (t.ipiv p) p ≠ 0 → dot p m (t.a (t.ipiv p)) (t.a (t.ipiv p)) = 2 * t.a (t.ipiv p) p
      rw [f1]
      by_cases hpi : p = i
      · subst hpi
        intro _
        rw [gii, ← v2]
        exact dot_congr (fun c h1 _ => by rw [gi, if_pos h1]) (fun c h1 _ => by rw [gi, if_pos h1])
      · rw [ga p (by omega)]
        exact h.unit p (by omega)
    · intro k hk hkn c hc
      show t.a (t.ipiv k) c = applyQ m t.a t.ipiv (i + 1) (a0 (t.ipiv k)) c
      rw [f1, hQ _ c hc, gk k (by omega) hkn]
      exact house_congr (fun _ _ _ => rfl) (h.rest k (by omega) hkn) him c hc
    · intro k hk c hc
      show applyQ m t.a t.ipiv (i + 1) (a0 (t.ipiv k)) c = if c < k then t.a (t.ipiv k) c else if c = k then (if k = i then _ else t.rdiag k) else 0
      rw [f1, hQ _ c hc]
      by_cases hki : k = i
      · subst hki
        rw [house_congr (v' := v) (w' := s.a (s.ipiv k)) (fun _ _ _ => rfl) (fun c hc => (h.rest k (le_refl _) hi c hc).symm) him c hc]
        unfold house
        by_cases hck : k ≤ c
        · rw [if_pos hck, v3 c hck hc, if_pos (rfl : k = k), if_neg (show ¬ c < k by omega)]
        · rw [if_neg hck, if_pos (by omega), gi, if_neg hck]
      · rw [house_short (hbelow k (by omega)) c hc, h.done k (by omega) c hc, ga k (by omega), if_neg hki]
        split
        · rfl
        · split
          · rw [f2 k (by rw [hmem]; omega)]
          · rfl
  · rw [if_neg haj]
    push Not at haj
    obtain ⟨n1, n2⟩ := vnorm_tail hN (s.a (s.ipiv i)) i m
    have hz : dot i m (s.a (s.ipiv i)) (s.a (s.ipiv i)) = 0 := by
      rw [← n2]
      unfold ajnorm at haj
      split at haj
      · rw [neg_eq_zero.1 haj, zero_mul]
      · rw [haj, zero_mul]
    have hzero : ∀ c, i ≤ c → c < m → s.a (s.ipiv i) c = 0 := by
      intro c h1 h2
      unfold dot at hz
      rw [Finset.sum_eq_zero_iff_of_nonneg (fun c _ => mul_self_nonneg _)] at hz
      exact mul_self_eq_zero.1 (hz c (by rw [Finset.mem_Ico]; omega))
    have hQ : ∀ w, applyQ m s.a s.ipiv (i + 1) w = applyQ m s.a s.ipiv i w := fun w => by
      rw [applyQ_succ, if_neg (by rw [hzero i (le_refl _) him]; simp)]
    refine ⟨h.perm, ?_, ?_, ?_⟩
    · intro p hp
      dsimp only
      by_cases hpi : p = i
      · subst hpi
        intro hh
        exact absurd (hzero p (le_refl _) him) hh
      · exact h.unit p (by omega)
    · intro k hk hkn c hc
      dsimp only
      rw [hQ]
      exact h.rest k (by omega) hkn c hc
    · intro k hk c hc
      dsimp only
      rw [hQ]
      by_cases hki : k = i
      · subst hki
        rw [← h.rest k (le_refl _) hi c hc, haj]
        by_cases hck : c < k
        · rw [if_pos hck]
        · rw [if_neg hck, hzero c (by omega) hc, if_pos rfl]
          simp
      · rw [if_neg hki]
        exact h.done k (by omega) c hc

/-- the factorization -/
theorem qrfac_spec {N : Num K} (hN : IsRoot N.sq) {n m : Nat} (hnm : n ≤ m) (a : Nat → Nat → K) : FInv n m a n (qrfac N n m a) := by
  unfold qrfac
  rw [Nat.min_eq_left hnm]
  dsimp only
  have key : ∀ i, i ≤ n → FInv n m a i ((List.range i).foldl (qrStep N n m)
      { a := a, ipiv := id, rdiag := fun p => vnorm N (tail (a p) 0 m), wa := fun p => vnorm N (tail (a p) 0 m) }) := by
    intro i
    induction i with
    | zero => intro _; exact ⟨⟨fun _ h => h, fun _ _ _ _ h => h⟩, by omega, fun _ _ _ _ _ => rfl, by omega⟩
    | succ i ih =>
      intro hi
      rw [List.range_succ, List.foldl_append]
      exact (ih (by omega)).step hN hnm (by omega)
  exact key n (le_refl _)

end Verif.Mpfit
