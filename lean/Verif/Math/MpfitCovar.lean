import Verif.Math.MpfitSolveProps
import Mathlib.LinearAlgebra.Matrix.NonsingularInverse
/-!
# C147: the covariance matrix of `mpfit`

The specification is the inverse of the matrix of the scalar products of the derivatives.
-/
namespace Verif.Mpfit
open Verif

variable {K : Type} [Field K] [LinearOrder K] [IsStrictOrderedRing K]

/-! ### The inverse of the triangle -/

omit [LinearOrder K] [IsStrictOrderedRing K] in
theorem invLine_fold {r : Nat → Nat → K} {k : Nat} : ∀ j, j ≤ k →
    let r0 := fun p c => if p = k ∧ c = k then 1 / r k k else r p c
    let r' := (List.range j).foldl (fun (r : Nat → Nat → K) j =>
      let temp := r k k * r k j
      fun p c => if p = k ∧ c ≤ j then (if c = j then 0 else r k c) - temp * r j c else r p c) r0
    (∀ p c, p ≠ k → r' p c = r p c) ∧ r' k k = 1 / r k k ∧ (∀ c, j ≤ c → c ≠ k → r' k c = r k c) ∧
      ∀ c, c < j → r' k c = -∑ i ∈ Finset.Ico c j, 1 / r k k * r k i * r i c := by
  intro j
  induction j with
  | zero =>
    intro _ r0 r'
    refine ⟨fun p c hp => ?_, ?_, fun c _ hc => ?_, by omega⟩
    · exact if_neg fun h => hp h.1
    · exact if_pos ⟨rfl, rfl⟩
    · exact if_neg fun h => hc h.2
  | succ j ih =>
    intro hj r0 r'
    obtain ⟨h1, h2, h3, h4⟩ := ih (by omega)
    have hr' : r' = (List.range (j + 1)).foldl (fun (r : Nat → Nat → K) j =>
      let temp := r k k * r k j
      fun p c => if p = k ∧ c ≤ j then (if c = j then 0 else r k c) - temp * r j c else r p c) r0 := rfl
    clear_value r'
    rw [List.range_succ, List.foldl_append, List.foldl_cons, List.foldl_nil] at hr'
    change ∀ p c, p ≠ k → _ at h1
    generalize (List.range j).foldl (fun (r : Nat → Nat → K) j =>
      let temp := r k k * r k j
      fun p c => if p = k ∧ c ≤ j then (if c = j then 0 else r k c) - temp * r j c else r p c) r0 = u at *
    dsimp only at h1 h2 h3 h4 hr'
    have e : ∀ p c, r' p c = if p = k ∧ c ≤ j then (if c = j then 0 else u k c) - u k k * u k j * u j c else u p c := fun p c => by rw [hr']
    refine ⟨?_, ?_, ?_, ?_⟩
    · intro p c hp
      rw [e, if_neg fun h => hp h.1]
      exact h1 p c hp
    · rw [e, if_neg (by omega)]
      exact h2
    · intro c hc hck
      rw [e, if_neg (by omega)]
      exact h3 c (by omega) hck
    · intro c hc
      rw [e, if_pos ⟨rfl, by omega⟩, h2, h3 j (le_refl _) (by omega), h1 j c (by omega), Finset.sum_Ico_succ_top (by omega)]
      by_cases hcj : c = j
      · subst hcj
        rw [if_pos rfl, Finset.Ico_self, Finset.sum_empty]
        ring
      · rw [if_neg hcj, h4 c (by omega)]
        ring

omit [LinearOrder K] [IsStrictOrderedRing K] in
theorem invLine_spec (r : Nat → Nat → K) (k : Nat) :
    (∀ p c, p ≠ k → invLine r k p c = r p c) ∧ invLine r k k k = 1 / r k k ∧ (∀ c, k < c → invLine r k k c = r k c) ∧
      ∀ c, c < k → invLine r k k c = -∑ i ∈ Finset.Ico c k, 1 / r k k * r k i * r i c := by
  obtain ⟨h1, h2, h3, h4⟩ := invLine_fold (r := r) (k := k) k (le_refl _)
  exact ⟨h1, h2, fun c hc => h3 c hc.le (by omega), h4⟩

/-- the inverse, when no diagonal element is small -/
theorem invR_spec {n : Nat} {r : Nat → Nat → K} (hr : ∀ k, k < n → 1 / 10 ^ 14 * |r 0 0| < |r k k|) :
    (invR n r).2 = n ∧ ∀ k, k < n → ∀ c, c ≤ k → ∑ j ∈ Finset.Ico c (k + 1), (invR n r).1 j c * r k j = if c = k then 1 else 0 := by
  have key : ∀ j, j ≤ n → ∃ u, (List.range j).foldl (fun (s : (Nat → Nat → K) × Nat × Bool) k =>
      if s.2.2 = false ∨ |s.1 k k| ≤ 1 / 10 ^ 14 * |r 0 0| then (s.1, s.2.1, false) else (invLine s.1 k, k + 1, true)) (r, 0, true) = (u, j, true) ∧
      (∀ p c, j ≤ p → u p c = r p c) ∧ ∀ k, k < j → ∀ c, c ≤ k → ∑ j ∈ Finset.Ico c (k + 1), u j c * r k j = if c = k then 1 else 0 := by
    intro j
    induction j with
    | zero => intro _; exact ⟨r, rfl, fun _ _ _ => rfl, by omega⟩
    | succ j ih =>
      intro hj
      obtain ⟨u, e, h1, h2⟩ := ih (by omega)
      have hne : r j j ≠ 0 := by
        intro h0
        have := hr j (by omega)
        rw [h0, abs_zero] at this
        have h3 : 0 ≤ 1 / 10 ^ 14 * |r 0 0| := by positivity
        exact absurd this (not_lt.2 h3)
      obtain ⟨i1, i2, i3, i4⟩ := invLine_spec u j
      refine ⟨invLine u j, ?_, ?_, ?_⟩
      · rw [List.range_succ, List.foldl_append, List.foldl_cons, List.foldl_nil, e]
        rw [if_neg]
        intro h
        rcases h with h | h
        · cases h
        · change |u j j| ≤ _ at h
          rw [h1 j j (le_refl _)] at h
          exact absurd (hr j (by omega)) (not_lt.2 h)
      · intro p c hp
        rw [i1 p c (by omega), h1 p c (by omega)]
      · intro k hk c hc
        by_cases hkj : k = j
        · subst hkj
          by_cases hck : c = k
          · subst hck
            rw [if_pos rfl, Finset.sum_Ico_succ_top (le_refl _), Finset.Ico_self, Finset.sum_empty, i2, h1 c c (le_refl _), zero_add]
            field_simp
          · rw [if_neg hck, Finset.sum_Ico_succ_top (by omega), i4 c (by omega), h1 k k (le_refl _)]
            have : ∑ j ∈ Finset.Ico c k, invLine u k j c * r k j = ∑ i ∈ Finset.Ico c k, u i c * r k i := by
              refine Finset.sum_congr rfl fun i hi => ?_
              rw [Finset.mem_Ico] at hi
              rw [i1 i c (by omega)]
            rw [this, neg_mul, Finset.sum_mul, ← sub_eq_add_neg, ← Finset.sum_sub_distrib]
            refine Finset.sum_eq_zero fun i _ => ?_
            rw [h1 k i (le_refl _)]
            field_simp
            ring
        · rw [← h2 k (by omega) c hc]
          refine Finset.sum_congr rfl fun i hi => ?_
          rw [Finset.mem_Ico] at hi
          rw [i1 i c (by omega)]
  obtain ⟨u, e, _, h2⟩ := key n (le_refl _)
  unfold invR
  dsimp only
  rw [e]
  exact ⟨rfl, h2⟩

/-! ### The product of the inverse and of its transpose -/

omit [LinearOrder K] [IsStrictOrderedRing K] in
theorem gramInv_inner (r : Nat → Nat → K) (k : Nat) : ∀ j, j ≤ k →
    let r' := (List.range j).foldl (fun (r : Nat → Nat → K) j => fun p c => if p = j ∧ c ≤ j then r j c + r k j * r k c else r p c) r
    ∀ p c, r' p c = if p < j ∧ c ≤ p then r p c + r k p * r k c else r p c := by
  intro j
  induction j with
  | zero => intro _ r' p c; rw [if_neg (by omega)]; rfl
  | succ j ih =>
    intro hj r' p c
    have h := ih (by omega)
    have hr' : r' = (List.range (j + 1)).foldl (fun (r : Nat → Nat → K) j => fun p c => if p = j ∧ c ≤ j then r j c + r k j * r k c else r p c) r := rfl
    clear_value r'
    rw [List.range_succ, List.foldl_append, List.foldl_cons, List.foldl_nil] at hr'
    generalize (List.range j).foldl (fun (r : Nat → Nat → K) j => fun p c => if p = j ∧ c ≤ j then r j c + r k j * r k c else r p c) r = u at *
    dsimp only at h
    have hk : ∀ c, u k c = r k c := fun c => by rw [h, if_neg (by omega)]
    rw [hr']
    dsimp only
    by_cases hpj : p = j
    · subst hpj
      by_cases hc : c ≤ p
      · rw [if_pos ⟨rfl, hc⟩, if_pos (show p < p + 1 ∧ c ≤ p by omega), hk, hk, h, if_neg (by omega)]
      · rw [if_neg (by omega), if_neg (by omega), h, if_neg (by omega)]
    · rw [if_neg (by omega), h]
      by_cases hc : p < j ∧ c ≤ p
      · rw [if_pos hc, if_pos (by omega)]
      · rw [if_neg hc, if_neg (by omega)]

omit [LinearOrder K] [IsStrictOrderedRing K] in
theorem gramInv_spec (r : Nat → Nat → K) : ∀ l p c, gramInv l r p c = if p < l ∧ c ≤ p then ∑ k ∈ Finset.Ico p l, r k p * r k c else r p c := by
  intro l
  induction l with
  | zero => intro p c; rw [if_neg (by omega)]; rfl
  | succ l ih =>
    intro p c
    unfold gramInv at ih ⊢
    rw [List.range_succ, List.foldl_append, List.foldl_cons, List.foldl_nil]
    generalize hu : (List.range l).foldl (fun (r : Nat → Nat → K) k =>
      let r := (List.range k).foldl (fun (r : Nat → Nat → K) j => fun p c => if p = j ∧ c ≤ j then r j c + r k j * r k c else r p c) r
      fun p c => if p = k ∧ c ≤ k then r k c * r k k else r p c) r = u at *
    have h := gramInv_inner u l l (le_refl _)
    dsimp only at h ⊢
    have hl : ∀ c, u l c = r l c := fun c => by rw [ih, if_neg (by omega)]
    by_cases hp : p = l ∧ c ≤ l
    · rw [if_pos hp, if_pos (show p < l + 1 ∧ c ≤ p by omega), h, if_neg (by omega), h, if_neg (by omega), hl, hl, hp.1, Finset.sum_Ico_succ_top (le_refl _),
        Finset.Ico_self, Finset.sum_empty, zero_add, mul_comm]
    · rw [if_neg hp, h]
      by_cases hp2 : p < l ∧ c ≤ p
      · rw [if_pos hp2, if_pos (by omega), ih, if_pos hp2, hl, hl, Finset.sum_Ico_succ_top (by omega)]
      · rw [if_neg hp2, if_neg (by omega), ih, if_neg hp2]

/-! ### The permutation -/

/-- the inner loop of the permutation, when nothing is singular -/
def unpivRow (ipiv : Nat → Nat) (j I : Nat) (r : Nat → Nat → K) : Nat → Nat → K :=
  (List.range I).foldl (fun (r : Nat → Nat → K) i =>
    if ipiv j < ipiv i then fun p c => if p = ipiv j ∧ c = ipiv i then r j i else r p c
    else if ipiv i < ipiv j then fun p c => if p = ipiv i ∧ c = ipiv j then r j i else r p c
    else r) r

/-- the element of the pair of rows `i` and `j` -/
def At (ipiv : Nat → Nat) (i j p c : Nat) : Prop := p = ipiv i ∧ c = ipiv j ∨ p = ipiv j ∧ c = ipiv i

instance (ipiv : Nat → Nat) (i j p c : Nat) : Decidable (At ipiv i j p c) := by unfold At; infer_instance

omit [LinearOrder K] [IsStrictOrderedRing K] in
theorem unpivRow_spec {n : Nat} {ipiv : Nat → Nat} (hp : Perm n ipiv) (r : Nat → Nat → K) {j : Nat} (hj : j < n) : ∀ I, I ≤ j →
    (∀ i, i < I → ∀ p c, p < c → At ipiv i j p c → unpivRow ipiv j I r p c = r j i) ∧
      ∀ p c, ((∀ i, i < I → ¬ At ipiv i j p c) ∨ c ≤ p) → unpivRow ipiv j I r p c = r p c := by
  intro I
  induction I with
  | zero => intro _; exact ⟨by omega, fun _ _ _ => rfl⟩
  | succ I ih =>
    intro hI
    obtain ⟨h1, h2⟩ := ih (by omega)
    have e : ∀ p c, unpivRow ipiv j (I + 1) r p c = if p < c ∧ At ipiv I j p c then r j I else unpivRow ipiv j I r p c := by
      intro p c
      have hji : unpivRow ipiv j I r j I = r j I := h2 j I (Or.inr (by omega))
      have hne : ipiv I ≠ ipiv j := fun h => by have := hp.inj I j (by omega) hj h; omega
      have : unpivRow ipiv j (I + 1) r = if ipiv j < ipiv I then fun p c => if p = ipiv j ∧ c = ipiv I then unpivRow ipiv j I r j I else unpivRow ipiv j I r p c
          else if ipiv I < ipiv j then fun p c => if p = ipiv I ∧ c = ipiv j then unpivRow ipiv j I r j I else unpivRow ipiv j I r p c
          else unpivRow ipiv j I r := by
        unfold unpivRow
        rw [List.range_succ, List.foldl_append, List.foldl_cons, List.foldl_nil]
      rw [this, hji]
      by_cases hlt : ipiv j < ipiv I
      · rw [if_pos hlt]
        by_cases hpc : p = ipiv j ∧ c = ipiv I
        · rw [if_pos hpc, if_pos ⟨by omega, Or.inr hpc⟩]
        · rw [if_neg hpc, if_neg]
          rintro ⟨h3, h4 | h4⟩
          · omega
          · exact hpc h4
      · rw [if_neg hlt, if_pos (show ipiv I < ipiv j by omega)]
        by_cases hpc : p = ipiv I ∧ c = ipiv j
        · rw [if_pos hpc, if_pos ⟨by omega, Or.inl hpc⟩]
        · rw [if_neg hpc, if_neg]
          rintro ⟨h3, h4 | h4⟩
          · exact hpc h4
          · omega
    refine ⟨?_, ?_⟩
    · intro i hi p c hpc hat
      rw [e]
      by_cases hiI : i = I
      · subst hiI
        rw [if_pos ⟨hpc, hat⟩]
      · rw [if_neg, h1 i (by omega) p c hpc hat]
        rintro ⟨_, hat'⟩
        refine hiI (hp.inj i I (by omega) (by omega) ?_)
        unfold At at hat hat'
        omega
    · intro p c hh
      rw [e, if_neg]
      · refine h2 p c ?_
        rcases hh with hh | hh
        · exact Or.inl fun i hi => hh i (by omega)
        · exact Or.inr hh
      · rintro ⟨h3, h4⟩
        rcases hh with hh | hh
        · exact hh I (by omega) h4
        · omega

/-- the whole permutation -/
theorem unpivot_spec {n : Nat} {ipiv : Nat → Nat} (hp : Perm n ipiv) (r : Nat → Nat → K) :
    (∀ i j, i < j → j < n → ∀ p c, p < c → At ipiv i j p c → (unpivot n n ipiv r).1 p c = r j i) ∧
      ∀ j, j < n → (unpivot n n ipiv r).2 (ipiv j) = r j j := by
  have step : ∀ (s : (Nat → Nat → K) × (Nat → K)) (j : Nat), j < n → (fun (s : (Nat → Nat → K) × (Nat → K)) j =>
      let jj := ipiv j
      let r := (List.range j).foldl (fun (r : Nat → Nat → K) i =>
        let r := if n < j + 1 then fun p c => if p = j ∧ c = i then 0 else r p c else r
        let ii := ipiv i
        if jj < ii then fun p c => if p = jj ∧ c = ii then r j i else r p c
        else if ii < jj then fun p c => if p = ii ∧ c = jj then r j i else r p c
        else r) s.1
      (r, fun c => if c = jj then r j j else s.2 c)) s j =
        (unpivRow ipiv j j s.1, fun c => if c = ipiv j then unpivRow ipiv j j s.1 j j else s.2 c) := by
    intro s j hj
    unfold unpivRow
    simp only [if_neg (show ¬ n < j + 1 by omega)]
  have key : ∀ J, J ≤ n → ∃ u, (List.range J).foldl (fun (s : (Nat → Nat → K) × (Nat → K)) j =>
      let jj := ipiv j
      let r := (List.range j).foldl (fun (r : Nat → Nat → K) i =>
        let r := if n < j + 1 then fun p c => if p = j ∧ c = i then 0 else r p c else r
        let ii := ipiv i
        if jj < ii then fun p c => if p = jj ∧ c = ii then r j i else r p c
        else if ii < jj then fun p c => if p = ii ∧ c = jj then r j i else r p c
        else r) s.1
      (r, fun c => if c = jj then r j j else s.2 c)) (r, fun _ => 0) = u ∧
      (∀ p c, c ≤ p → u.1 p c = r p c) ∧ (∀ i j, i < j → j < J → ∀ p c, p < c → At ipiv i j p c → u.1 p c = r j i) ∧ ∀ j, j < J → u.2 (ipiv j) = r j j := by
    intro J
    induction J with
    | zero => intro _; exact ⟨_, rfl, fun _ _ _ => rfl, by omega, by omega⟩
    | succ J ih =>
      intro hJ
      obtain ⟨u, e, h1, h2, h3⟩ := ih (by omega)
      refine ⟨(unpivRow ipiv J J u.1, fun c => if c = ipiv J then unpivRow ipiv J J u.1 J J else u.2 c), ?_, ?_⟩
      · rw [List.range_succ, List.foldl_append, List.foldl_cons, List.foldl_nil, e]
        exact step u J (by omega)
      obtain ⟨g1, g2⟩ := unpivRow_spec hp u.1 (show J < n by omega) J (le_refl _)
      refine ⟨?_, ?_, ?_⟩
      · intro p c hc
        exact (g2 p c (Or.inr hc)).trans (h1 p c hc)
      · intro i j hij hj p c hpc hat
        by_cases hjJ : j = J
        · subst hjJ
          exact (g1 i hij p c hpc hat).trans (h1 j i hij.le)
        · refine (g2 p c (Or.inl ?_)).trans (h2 i j hij (by omega) p c hpc hat)
          intro i' hi' hat'
          have a1 : ipiv J ≠ ipiv i := fun h => by have := hp.inj J i (by omega) (by omega) h; omega
          have a2 : ipiv J ≠ ipiv j := fun h => by have := hp.inj J j (by omega) (by omega) h; omega
          unfold At at hat hat'
          omega
      · intro j hj
        dsimp only
        by_cases hjJ : j = J
        · subst hjJ
          rw [if_pos rfl, g2 j j (Or.inr (le_refl _)), h1 j j (le_refl _)]
        · rw [if_neg fun h => hjJ (hp.inj j J (by omega) (by omega) h)]
          exact h3 j (by omega)
  obtain ⟨u, e, _, h2, h3⟩ := key n (le_refl _)
  unfold unpivot
  rw [e]
  exact ⟨h2, h3⟩

omit [LinearOrder K] [IsStrictOrderedRing K] in
/-- the last loop -/
theorem symm_spec (u : (Nat → Nat → K) × (Nat → K)) : ∀ J,
    let r' := (List.range J).foldl (fun (r : Nat → Nat → K) j => fun p c => if p = j ∧ c ≤ j then (if c = j then u.2 j else r c j) else r p c) u.1
    ∀ p c, r' p c = if p < J ∧ c ≤ p then (if c = p then u.2 p else u.1 c p) else u.1 p c := by
  intro J
  induction J with
  | zero => intro r' p c; rw [if_neg (by omega)]; rfl
  | succ J ih =>
    intro r' p c
    have hr' : r' = (List.range (J + 1)).foldl (fun (r : Nat → Nat → K) j => fun p c => if p = j ∧ c ≤ j then (if c = j then u.2 j else r c j) else r p c) u.1 := rfl
    clear_value r'
    rw [List.range_succ, List.foldl_append, List.foldl_cons, List.foldl_nil] at hr'
    generalize (List.range J).foldl (fun (r : Nat → Nat → K) j => fun p c => if p = j ∧ c ≤ j then (if c = j then u.2 j else r c j) else r p c) u.1 = v at *
    dsimp only at ih
    rw [hr']
    dsimp only
    by_cases hp : p = J ∧ c ≤ J
    · rw [if_pos hp, if_pos (show p < J + 1 ∧ c ≤ p by omega)]
      by_cases hc : c = J
      · rw [if_pos hc, if_pos (show c = p by omega), hp.1]
      · rw [if_neg hc, if_neg (show ¬ c = p by omega), ih, if_neg (by omega), hp.1]
    · rw [if_neg hp, ih]
      by_cases hp2 : p < J ∧ c ≤ p
      · rw [if_pos hp2, if_pos (show p < J + 1 ∧ c ≤ p by omega)]
      · rw [if_neg hp2, if_neg (show ¬ (p < J + 1 ∧ c ≤ p) by omega)]

/-- the covariance in terms of the inverse triangle -/
theorem covar_spec {n : Nat} {q : QR K} (hp : Perm n q.ipiv) (hr : ∀ k, k < n → 1 / 10 ^ 14 * |q.r 0 0| < |q.r k k|) :
    ∀ i j, i < n → j < n → covar n q (q.ipiv i) (q.ipiv j) = ∑ k ∈ Finset.range n, tri (invR n q.r).1 k i * tri (invR n q.r).1 k j := by
  obtain ⟨i1, _⟩ := invR_spec hr
  have hM : ∀ i j, i ≤ j → j < n → gramInv n (invR n q.r).1 j i = ∑ k ∈ Finset.range n, tri (invR n q.r).1 k i * tri (invR n q.r).1 k j := by
    intro i j hij hj
    rw [gramInv_spec, if_pos ⟨hj, hij⟩, Finset.range_eq_Ico]
    refine (Finset.sum_subset_zero_on_sdiff (Finset.Ico_subset_Ico (Nat.zero_le j) (le_refl n)) ?_ ?_)
    · intro k hk
      rw [Finset.mem_sdiff, Finset.mem_Ico, Finset.mem_Ico] at hk
      unfold tri
      rw [if_neg (show ¬ j ≤ k by omega), mul_zero]
    · intro k hk
      rw [Finset.mem_Ico] at hk
      unfold tri
      rw [if_pos (show i ≤ k by omega), if_pos (show j ≤ k by omega), mul_comm]
  obtain ⟨u1, u2⟩ := unpivot_spec hp (gramInv n (invR n q.r).1)
  have hs := symm_spec (unpivot n n q.ipiv (gramInv n (invR n q.r).1)) n
  have key : ∀ i j, i ≤ j → j < n → covar n q (q.ipiv i) (q.ipiv j) = gramInv n (invR n q.r).1 j i ∧ covar n q (q.ipiv j) (q.ipiv i) = gramInv n (invR n q.r).1 j i := by
    intro i j hij hj
    unfold covar
    rw [i1]
    dsimp only at hs
    rw [hs, hs]
    have li := hp.lt i (by omega)
    have lj := hp.lt j hj
    by_cases h : i = j
    · subst h
      rw [if_pos ⟨li, le_refl _⟩, if_pos rfl]
      exact ⟨u2 i hj, u2 i hj⟩
    · have hne : q.ipiv i ≠ q.ipiv j := fun hh => h (hp.inj i j (by omega) hj hh)
      by_cases hlt : q.ipiv i < q.ipiv j
      · rw [if_neg (by omega), if_pos ⟨lj, by omega⟩, if_neg (by omega)]
        have := u1 i j (by omega) hj _ _ hlt (Or.inl ⟨rfl, rfl⟩)
        exact ⟨this, this⟩
      · rw [if_pos ⟨li, by omega⟩, if_neg (by omega), if_neg (by omega)]
        have := u1 i j (by omega) hj (q.ipiv j) (q.ipiv i) (by omega) (Or.inr ⟨rfl, rfl⟩)
        exact ⟨this, this⟩
  intro i j hi hj
  by_cases hij : i ≤ j
  · rw [(key i j hij hj).1, hM i j hij hj]
  · rw [(key j i (by omega) hi).2, hM j i (by omega) hi]
    exact Finset.sum_congr rfl fun k _ => mul_comm _ _

/-- a left inverse is a right inverse -/
theorem inv_comm {n : Nat} {W T : Nat → Nat → K} (h : ∀ c k, c < n → k < n → ∑ j ∈ Finset.range n, W j c * T k j = if c = k then 1 else 0) :
    ∀ i k, i < n → k < n → ∑ j ∈ Finset.range n, T j i * W k j = if i = k then 1 else 0 := by
  have hm : (Matrix.of fun c j : Fin n => W j c) * (Matrix.of fun j k : Fin n => T k j) = 1 := by
    ext c k
    rw [Matrix.mul_apply, Matrix.one_apply]
    have := h c k c.2 k.2
    rw [Finset.sum_range] at this
    simpa [Fin.ext_iff] using this
  rw [mul_eq_one_comm] at hm
  intro i k hi hk
  have := congrFun (congrFun hm ⟨i, hi⟩) ⟨k, hk⟩
  rw [Matrix.mul_apply, Matrix.one_apply] at this
  rw [Finset.sum_range]
  simpa [Fin.ext_iff] using this

/-- **C147** the covariance matrix is symmetric, and it is the inverse of the matrix of the scalar products of the derivatives, when no parameter is degenerate -/
theorem C147_inverse {N : Num K} (hN : IsRoot N.sq) {n m : Nat} (hnm : n ≤ m) {a : Nat → Nat → K} {f : Nat → K} {q : QR K} (h : Fact N n m a f q)
    (hr : ∀ k, k < n → 1 / 10 ^ 14 * |q.r 0 0| < |q.r k k|) :
    (∀ l l', l < n → l' < n → covar n q l l' = covar n q l' l) ∧
      ∀ l l', l < n → l' < n → ∑ k ∈ Finset.range n, (∑ c ∈ Finset.range m, a l c * a k c) * covar n q k l' = if l = l' then 1 else 0 := by
  have hp : Perm n q.ipiv := by rw [h.ipiv]; exact (C145_factor hN hnm a f).1
  have hc := covar_spec hp hr
  obtain ⟨_, hv⟩ := invR_spec hr
  have hleft : ∀ c k, c < n → k < n → ∑ j ∈ Finset.range n, tri (invR n q.r).1 j c * tri q.r k j = if c = k then 1 else 0 := by
    intro c k hcn hkn
    by_cases hck : c ≤ k
    · rw [← hv k hkn c hck, Finset.range_eq_Ico]
      refine (Finset.sum_subset_zero_on_sdiff (Finset.Ico_subset_Ico (Nat.zero_le c) (show k + 1 ≤ n by omega)) ?_ ?_).symm
      · intro j hj
        rw [Finset.mem_sdiff, Finset.mem_Ico, Finset.mem_Ico] at hj
        unfold tri
        by_cases h1 : c ≤ j
        · rw [if_neg (show ¬ j ≤ k by omega), mul_zero]
        · rw [if_neg h1, zero_mul]
      · intro j hj
        rw [Finset.mem_Ico] at hj
        unfold tri
        rw [if_pos (show c ≤ j by omega), if_pos (show j ≤ k by omega)]
    · rw [if_neg (by omega)]
      refine Finset.sum_eq_zero fun j _ => ?_
      unfold tri
      by_cases h1 : c ≤ j
      · rw [if_neg (show ¬ j ≤ k by omega), mul_zero]
      · rw [if_neg h1, zero_mul]
  have hright := inv_comm hleft
  refine ⟨?_, ?_⟩
  · intro l l' hl hl'
    obtain ⟨i, hi, rfl⟩ := hp.surj l hl
    obtain ⟨j, hj, rfl⟩ := hp.surj l' hl'
    rw [hc i j hi hj, hc j i hj hi]
    exact Finset.sum_congr rfl fun k _ => mul_comm _ _
  · intro l l' hl hl'
    obtain ⟨i, hi, rfl⟩ := hp.surj l hl
    obtain ⟨j, hj, rfl⟩ := hp.surj l' hl'
    rw [← hp.sum fun k => (∑ c ∈ Finset.range m, a (q.ipiv i) c * a k c) * covar n q k (q.ipiv j)]
    have e1 : ∀ k ∈ Finset.range n, (∑ c ∈ Finset.range m, a (q.ipiv i) c * a (q.ipiv k) c) * covar n q (q.ipiv k) (q.ipiv j) =
        ∑ s ∈ Finset.range n, ∑ t ∈ Finset.range n, tri q.r i s * tri (invR n q.r).1 t j * (tri q.r k s * tri (invR n q.r).1 t k) := by
      intro k hk
      rw [← h.gram hN hnm hi (Finset.mem_range.1 hk), hc k j (Finset.mem_range.1 hk) hj, Finset.sum_mul_sum]
      exact Finset.sum_congr rfl fun s _ => Finset.sum_congr rfl fun t _ => by ring
    rw [Finset.sum_congr rfl e1, Finset.sum_comm]
    have e2 : ∀ s ∈ Finset.range n, ∑ k ∈ Finset.range n, ∑ t ∈ Finset.range n, tri q.r i s * tri (invR n q.r).1 t j * (tri q.r k s * tri (invR n q.r).1 t k) =
        tri (invR n q.r).1 s j * tri q.r i s := by
      intro s hs
      rw [Finset.sum_comm]
      have e3 : ∀ t ∈ Finset.range n, ∑ k ∈ Finset.range n, tri q.r i s * tri (invR n q.r).1 t j * (tri q.r k s * tri (invR n q.r).1 t k) =
          if t = s then tri q.r i s * tri (invR n q.r).1 s j else 0 := by
        intro t ht
        rw [← Finset.mul_sum, hright s t (Finset.mem_range.1 hs) (Finset.mem_range.1 ht)]
        by_cases hst : s = t
        · subst hst; rw [if_pos rfl, if_pos rfl, mul_one]
        · rw [if_neg hst, if_neg (Ne.symm hst), mul_zero]
      rw [Finset.sum_congr rfl e3, Finset.sum_ite_eq' (Finset.range n) s fun _ => tri q.r i s * tri (invR n q.r).1 s j, if_pos hs, mul_comm]
    rw [Finset.sum_congr rfl e2, hleft j i hj hi]
    by_cases hij : i = j
    · subst hij; rw [if_pos rfl, if_pos rfl]
    · rw [if_neg (Ne.symm hij), if_neg fun hh => hij (hp.inj i j hi hj hh)]

/-- the covariance of two parameters that are exchanged by the factorization: the derivatives are `(0, 5)` and `(6, 8)` -/
example :
    let N : Num ℚ := ⟨Rat.sqrt, 1 / 2 ^ 52, 1 / 2 ^ 26, 1 / 2 ^ 1022, 2 ^ 1023⟩
    let q := factor N 2 2 (fun p c => if p = 0 then (if c = 0 then 0 else 5) else if c = 0 then 6 else 8) (fun _ => 1)
    q.ipiv 0 = 1 ∧ q.ipiv 1 = 0 ∧ (∀ k < 2, 1 / 10 ^ 14 * |q.r 0 0| < |q.r k k|) ∧
      covar 2 q 0 0 = 1 / 9 ∧ covar 2 q 0 1 = -2 / 45 ∧ covar 2 q 1 0 = -2 / 45 ∧ covar 2 q 1 1 = 1 / 36 := by decide +kernel

/-- **C147 (refuted)** "a parameter that the deviates do not constrain has a variance of zero": the loop that sets the elements to zero does not reach the diagonal, and the
variance is the small element of the triangle, which may be negative. The derivatives are `(1, 0)` and `(0, 1e-20)` -/
theorem C147_degenerate_refuted :
    let N : Num ℚ := ⟨Rat.sqrt, 1 / 2 ^ 52, 1 / 2 ^ 26, 1 / 2 ^ 1022, 2 ^ 1023⟩
    let q := factor N 2 2 (fun p c => if p = c then (if c = 0 then 1 else 1 / 10 ^ 20) else 0) (fun _ => 1)
    q.r 1 1 = -1 / 10 ^ 20 ∧ covar 2 q 1 1 = -1 / 10 ^ 20 := by decide +kernel

end Verif.Mpfit
