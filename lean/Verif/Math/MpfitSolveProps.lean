import Verif.Math.MpfitSolve
import Verif.Math.MpfitQRProps
import Mathlib.Analysis.Real.Sqrt
/-!
# C146: the steps of `mpfit`

The specification is the problem that a damped step solves: to minimize the squares of the linearized deviates plus `mu` times the squares of the scaled
step. It does not know of the factorization.
-/
namespace Verif.Mpfit
open Verif

variable {K : Type} [Field K] [LinearOrder K] [IsStrictOrderedRing K]

/-- the linearized deviates for a step `-y` -/
def linDev (n : Nat) (a : Nat → Nat → K) (f y : Nat → K) (c : Nat) : K := f c - ∑ l ∈ Finset.range n, a l c * y l

/-- the function that a damped step minimizes -/
def damped (n m : Nat) (a : Nat → Nat → K) (f d : Nat → K) (mu : K) (y : Nat → K) : K :=
  ∑ c ∈ Finset.range m, linDev n a f y c ^ 2 + mu * ∑ l ∈ Finset.range n, (d l * y l) ^ 2

omit [LinearOrder K] [IsStrictOrderedRing K] in
theorem Perm.surj {n : Nat} {ipiv : Nat → Nat} (h : Perm n ipiv) : ∀ l, l < n → ∃ p, p < n ∧ ipiv p = l := by
  intro l hl
  have hinj : Function.Injective (fun p : Fin n => (⟨ipiv p, h.lt p p.2⟩ : Fin n)) := fun p p' hh => by
    have := h.inj p p' p.2 p'.2 (by simpa using hh)
    exact Fin.ext this
  obtain ⟨p, hp⟩ := (Finite.injective_iff_surjective.1 hinj) ⟨l, hl⟩
  exact ⟨p, p.2, by simpa using hp⟩

omit [LinearOrder K] [IsStrictOrderedRing K] in
theorem Perm.sum {n : Nat} {ipiv : Nat → Nat} (h : Perm n ipiv) (g : Nat → K) : ∑ c ∈ Finset.range n, g (ipiv c) = ∑ l ∈ Finset.range n, g l := by
  refine Finset.sum_bij (fun c _ => ipiv c) ?_ ?_ ?_ ?_
  · intro c hc
    exact Finset.mem_range.2 (h.lt c (Finset.mem_range.1 hc))
  · intro c hc c' hc' he
    exact h.inj c c' (Finset.mem_range.1 hc) (Finset.mem_range.1 hc') he
  · intro l hl
    obtain ⟨p, hp, he⟩ := h.surj l (Finset.mem_range.1 hl)
    exact ⟨p, Finset.mem_range.2 hp, he⟩
  · intro _ _
    rfl

/-- the normal equations characterize the minimum -/
theorem damped_min {n m : Nat} {a : Nat → Nat → K} {f d x : Nat → K} {mu : K} (hmu : 0 ≤ mu)
    (h : ∀ l, l < n → ∑ c ∈ Finset.range m, a l c * linDev n a f x c = mu * d l ^ 2 * x l) (y : Nat → K) :
    damped n m a f d mu x ≤ damped n m a f d mu y := by
  unfold damped
  generalize hz : (fun l => y l - x l) = z
  have ez : ∀ l, y l = x l + z l := fun l => by rw [← hz]; ring
  have e1 : ∀ c, linDev n a f y c = linDev n a f x c - ∑ l ∈ Finset.range n, a l c * z l := by
    intro c
    unfold linDev
    rw [Finset.sum_congr rfl fun l _ => by rw [ez l, mul_add], Finset.sum_add_distrib]
    ring
  have e2 : ∑ c ∈ Finset.range m, linDev n a f y c ^ 2 = ∑ c ∈ Finset.range m, linDev n a f x c ^ 2 -
      2 * (∑ c ∈ Finset.range m, linDev n a f x c * ∑ l ∈ Finset.range n, a l c * z l) + ∑ c ∈ Finset.range m, (∑ l ∈ Finset.range n, a l c * z l) ^ 2 := by
    rw [Finset.mul_sum, ← Finset.sum_sub_distrib, ← Finset.sum_add_distrib]
    exact Finset.sum_congr rfl fun c _ => by rw [e1]; ring
  have e3 : ∑ c ∈ Finset.range m, linDev n a f x c * ∑ l ∈ Finset.range n, a l c * z l = ∑ l ∈ Finset.range n, mu * d l ^ 2 * x l * z l := by
    rw [Finset.sum_congr rfl fun c _ => Finset.mul_sum _ _ _, Finset.sum_comm]
    refine Finset.sum_congr rfl fun l hl => ?_
    rw [← h l (Finset.mem_range.1 hl), Finset.sum_mul]
    exact Finset.sum_congr rfl fun c _ => by ring
  have e4 : ∑ l ∈ Finset.range n, (d l * y l) ^ 2 = ∑ l ∈ Finset.range n, (d l * x l) ^ 2 + 2 * ∑ l ∈ Finset.range n, d l ^ 2 * x l * z l +
      ∑ l ∈ Finset.range n, (d l * z l) ^ 2 := by
    rw [Finset.mul_sum, ← Finset.sum_add_distrib, ← Finset.sum_add_distrib]
    exact Finset.sum_congr rfl fun l _ => by rw [ez l]; ring
  have e5 : ∑ l ∈ Finset.range n, mu * d l ^ 2 * x l * z l = mu * ∑ l ∈ Finset.range n, d l ^ 2 * x l * z l := by
    rw [Finset.mul_sum]
    exact Finset.sum_congr rfl fun l _ => by ring
  have p1 : 0 ≤ ∑ c ∈ Finset.range m, (∑ l ∈ Finset.range n, a l c * z l) ^ 2 := Finset.sum_nonneg fun c _ => sq_nonneg _
  have p2 : 0 ≤ mu * ∑ l ∈ Finset.range n, (d l * z l) ^ 2 := mul_nonneg hmu (Finset.sum_nonneg fun c _ => sq_nonneg _)
  rw [e2, e3, e4, e5]
  linarith [mul_add mu (∑ l ∈ Finset.range n, (d l * x l) ^ 2 + 2 * ∑ l ∈ Finset.range n, d l ^ 2 * x l * z l) (∑ l ∈ Finset.range n, (d l * z l) ^ 2),
    mul_add mu (∑ l ∈ Finset.range n, (d l * x l) ^ 2) (2 * ∑ l ∈ Finset.range n, d l ^ 2 * x l * z l)]

/-- the triangle of the factorization, as a matrix of two indices -/
def tri (r : Nat → Nat → K) (i k : Nat) : K := if k ≤ i then r i k else 0

/-- a matrix and a vector that are the factorization of the derivatives `a` and of the deviates `f` below the diagonal -/
structure Fact (N : Num K) (n m : Nat) (a : Nat → Nat → K) (f : Nat → K) (q : QR K) : Prop where
  ipiv : q.ipiv = (factor N n m a f).ipiv
  qtf : q.qtf = (factor N n m a f).qtf
  r : ∀ p c, p < n → c ≤ p → q.r p c = (factor N n m a f).r p c

omit [LinearOrder K] [IsStrictOrderedRing K] in
theorem sum_tri {n p p' : Nat} (r : Nat → Nat → K) (h : p ≤ p') (hp : p' < n) :
    ∑ k ∈ Finset.range n, tri r p k * tri r p' k = ∑ i ∈ Finset.range (p + 1), r p i * r p' i := by
  rw [← Finset.sum_subset (Finset.range_subset_range.2 (show p + 1 ≤ n by omega))]
  · refine Finset.sum_congr rfl fun k hk => ?_
    rw [Finset.mem_range] at hk
    unfold tri
    rw [if_pos (show k ≤ p by omega), if_pos (show k ≤ p' by omega)]
  · intro k _ hk
    rw [Finset.mem_range] at hk
    unfold tri
    rw [if_neg (show ¬ k ≤ p by omega), zero_mul]

theorem Fact.gram {N : Num K} (hN : IsRoot N.sq) {n m : Nat} (hnm : n ≤ m) {a : Nat → Nat → K} {f : Nat → K} {q : QR K} (h : Fact N n m a f q) {p p' : Nat} (hp : p < n) (hp' : p' < n) :
    ∑ k ∈ Finset.range n, tri q.r p k * tri q.r p' k = ∑ c ∈ Finset.range m, a (q.ipiv p) c * a (q.ipiv p') c := by
  obtain ⟨_, h2, _, _⟩ := C145_factor hN hnm a f
  have key : ∀ p p', p ≤ p' → p' < n →
      ∑ k ∈ Finset.range n, tri q.r p k * tri q.r p' k = ∑ c ∈ Finset.range m, a (q.ipiv p) c * a (q.ipiv p') c := by
    intro p p' hpp hp'
    rw [sum_tri _ hpp hp', h.ipiv, h2 p p' hpp hp']
    refine Finset.sum_congr rfl fun k hk => ?_
    rw [Finset.mem_range] at hk
    rw [h.r p k (by omega) (by omega), h.r p' k hp' (by omega)]
  by_cases hpp : p ≤ p'
  · exact key p p' hpp hp'
  · rw [Finset.sum_congr rfl fun k _ => mul_comm (tri q.r p k) (tri q.r p' k), key p' p (by omega) hp]
    exact Finset.sum_congr rfl fun k _ => mul_comm _ _

theorem Fact.rhs {N : Num K} (hN : IsRoot N.sq) {n m : Nat} (hnm : n ≤ m) {a : Nat → Nat → K} {f : Nat → K} {q : QR K} (h : Fact N n m a f q) {p : Nat} (hp : p < n) :
    ∑ k ∈ Finset.range (p + 1), q.r p k * q.qtf k = ∑ c ∈ Finset.range m, a (q.ipiv p) c * f c := by
  obtain ⟨_, _, h3, _⟩ := C145_factor hN hnm a f
  rw [h.ipiv, h3 p hp, h.qtf]
  refine Finset.sum_congr rfl fun k hk => ?_
  rw [Finset.mem_range] at hk
  rw [h.r p k hp (by omega)]

/-- the equations of the triangular system are those of the step -/
theorem Fact.normal {N : Num K} (hN : IsRoot N.sq) {n m : Nat} (hnm : n ≤ m) {a : Nat → Nat → K} {f : Nat → K} {q : QR K} (h : Fact N n m a f q) {d x : Nat → K} {mu : K}
    (hx : ∀ i, i < n → ∑ c ∈ Finset.range n, (∑ k ∈ Finset.range n, tri q.r i k * tri q.r c k) * x (q.ipiv c) + mu * d (q.ipiv i) ^ 2 * x (q.ipiv i) =
      ∑ k ∈ Finset.range (i + 1), q.r i k * q.qtf k) :
    ∀ l, l < n → ∑ c ∈ Finset.range m, a l c * linDev n a f x c = mu * d l ^ 2 * x l := by
  have hp : Perm n q.ipiv := by rw [h.ipiv]; exact (C145_factor hN hnm a f).1
  intro l hl
  obtain ⟨i, hi, rfl⟩ := hp.surj l hl
  have e := hx i hi
  rw [h.rhs hN hnm hi, Finset.sum_congr rfl fun c hc => by rw [h.gram hN hnm hi (Finset.mem_range.1 hc)]] at e
  rw [hp.sum fun l => (∑ c ∈ Finset.range m, a (q.ipiv i) c * a l c) * x l] at e
  have e2 : ∑ c ∈ Finset.range m, a (q.ipiv i) c * linDev n a f x c = ∑ c ∈ Finset.range m, a (q.ipiv i) c * f c -
      ∑ l ∈ Finset.range n, (∑ c ∈ Finset.range m, a (q.ipiv i) c * a l c) * x l := by
    unfold linDev
    rw [Finset.sum_congr rfl fun c _ => mul_sub _ _ _, Finset.sum_sub_distrib]
    congr 1
    rw [Finset.sum_congr rfl fun c _ => Finset.mul_sum _ _ _, Finset.sum_comm]
    refine Finset.sum_congr rfl fun l _ => ?_
    rw [Finset.sum_mul]
    exact Finset.sum_congr rfl fun c _ => by ring
  rw [e2, ← e]
  ring

/-! ### The direction without damping -/

omit [IsStrictOrderedRing K] in
theorem newton_fold {n : Nat} {r : Nat → Nat → K} {w : Nat → K} (hr : ∀ j, j < n → r j j ≠ 0) : ∀ (k : Nat) (z : Nat → K), k ≤ n →
    (∀ j, k ≤ j → j < n → ∑ c ∈ Finset.Ico j n, r c j * z c = w j) → (∀ j, j < k → z j = w j - ∑ c ∈ Finset.Ico k n, r c j * z c) →
    let z' := (List.range k).reverse.foldl (fun (wa : Nat → K) j => fun c => if c = j then wa j / r j j else if c < j then wa c - r j c * (wa j / r j j) else wa c) z
    ∀ j, j < n → ∑ c ∈ Finset.Ico j n, r c j * z' c = w j := by
  intro k
  induction k with
  | zero => intro z _ h _; exact fun j hj => h j (Nat.zero_le _) hj
  | succ k ih =>
    intro z hk h1 h2
    rw [List.range_succ, List.reverse_append, List.reverse_singleton, List.singleton_append, List.foldl_cons]
    generalize hz2 : (fun c => if c = k then z k / r k k else if c < k then z c - r k c * (z k / r k k) else z c) = z2
    have ez : ∀ c, z2 c = if c = k then z k / r k k else if c < k then z c - r k c * (z k / r k k) else z c := fun c => by rw [← hz2]
    have ehi : ∀ c, k < c → z2 c = z c := fun c hc => by rw [ez, if_neg (by omega), if_neg (by omega)]
    have esum : ∀ j i, k < i → ∑ c ∈ Finset.Ico i n, r c j * z2 c = ∑ c ∈ Finset.Ico i n, r c j * z c := by
      intro j i hi
      refine Finset.sum_congr rfl fun c hc => ?_
      rw [Finset.mem_Ico] at hc
      rw [ehi c (by omega)]
    have ek : r k k * z2 k = z k := by rw [ez, if_pos rfl, mul_div_cancel₀ _ (hr k (by omega))]
    refine ih z2 (by omega) ?_ ?_
    · intro j hkj hj
      by_cases hjk : j = k
      · subst hjk
        rw [Finset.sum_eq_sum_Ico_succ_bot (by omega), ek, esum _ _ (by omega), h2 j (by omega)]
        ring
      · rw [esum j j (by omega)]
        exact h1 j (by omega) hj
    · intro j hj
      rw [ez, if_neg (by omega), if_pos hj, h2 j (by omega), Finset.sum_eq_sum_Ico_succ_bot (show k < n by omega), esum _ _ (by omega)]
      have : z2 k = z k / r k k := by rw [ez, if_pos rfl]
      rw [this]
      ring

omit [IsStrictOrderedRing K] in
theorem newton_spec {N : Num K} {n : Nat} {r : Nat → Nat → K} {qtf : Nat → K} (hrank : rank N n r = n) (hr : ∀ j, j < n → r j j ≠ 0) :
    ∀ j, j < n → ∑ c ∈ Finset.range n, tri r c j * newton N n r qtf c = qtf j := by
  intro j hj
  unfold newton
  rw [hrank]
  have := newton_fold (w := qtf) hr n (fun j => if n ≤ j then 0 else qtf j) (le_refl _) (by omega) (fun j hj => by rw [if_neg (by omega), Finset.Ico_self]; simp) j hj
  rw [← this, Finset.range_eq_Ico]
  refine (Finset.sum_subset (Finset.Ico_subset_Ico (Nat.zero_le j) (le_refl _)) ?_).symm.trans ?_
  · intro c hc hc'
    rw [Finset.mem_Ico] at hc hc'
    unfold tri
    rw [if_neg (by omega), zero_mul]
  · refine Finset.sum_congr rfl fun c hc => ?_
    rw [Finset.mem_Ico] at hc
    unfold tri
    rw [if_pos (by omega)]

/-! ### The damped step -/

/-- the equations of the step with the damping `mu` -/
def Solves (n : Nat) (r : Nat → Nat → K) (ipiv : Nat → Nat) (diag qtf : Nat → K) (mu : K) (x : Nat → K) : Prop :=
  ∀ i, i < n → ∑ c ∈ Finset.range n, (∑ k ∈ Finset.range n, tri r i k * tri r c k) * x (ipiv c) + mu * diag (ipiv i) ^ 2 * x (ipiv i) =
    ∑ k ∈ Finset.range (i + 1), r i k * qtf k

omit [LinearOrder K] [IsStrictOrderedRing K] in
theorem Solves.congr {n : Nat} {r r' : Nat → Nat → K} (h : ∀ p c, p < n → c ≤ p → r' p c = r p c) {ipiv : Nat → Nat} {diag qtf : Nat → K} {mu : K} {x : Nat → K}
    (hs : Solves n r' ipiv diag qtf mu x) : Solves n r ipiv diag qtf mu x := by
  have ht : ∀ i k, i < n → tri r' i k = tri r i k := by
    intro i k hi
    unfold tri
    by_cases hk : k ≤ i
    · rw [if_pos hk, if_pos hk, h i k hi hk]
    · rw [if_neg hk, if_neg hk]
  intro i hi
  have e := hs i hi
  have e1 : ∑ c ∈ Finset.range n, (∑ k ∈ Finset.range n, tri r' i k * tri r' c k) * x (ipiv c) =
      ∑ c ∈ Finset.range n, (∑ k ∈ Finset.range n, tri r i k * tri r c k) * x (ipiv c) := by
    refine Finset.sum_congr rfl fun c hc => ?_
    rw [Finset.sum_congr rfl fun k _ => by rw [ht i k hi, ht c k (Finset.mem_range.1 hc)]]
  have e2 : ∑ k ∈ Finset.range (i + 1), r' i k * qtf k = ∑ k ∈ Finset.range (i + 1), r i k * qtf k :=
    Finset.sum_congr rfl fun k hk => by rw [h i k hi (by rw [Finset.mem_range] at hk; omega)]
  rw [e1, e2] at e
  exact e

/-- the loop on the damping parameter -/
theorem lmLoop_spec {N : Num K} (hN : IsRoot N.sq) (hdw : 0 < N.dwarf) {n : Nat} {ipiv : Nat → Nat} (hp : Perm n ipiv) {diag : Nat → K} (hd : ∀ p, p < n → diag p ≠ 0)
    {qtf : Nat → K} {delta : K} : ∀ (fuel : Nat) (r : Nat → Nat → K) (x sdiag : Nat → K) (fp par parl paru : K), 0 ≤ par → 0 ≤ parl →
    (∀ p c, p < n → c ≤ p → (lmLoop N n ipiv diag qtf delta (fuel + 1) r x sdiag fp par parl paru).1 p c = r p c) ∧
    ∃ mu, 0 < mu ∧ Solves n r ipiv diag qtf mu (lmLoop N n ipiv diag qtf delta (fuel + 1) r x sdiag fp par parl paru).2.1 ∧
      ((lmLoop N n ipiv diag qtf delta (fuel + 1) r x sdiag fp par parl paru).2.2 = mu ∨
        1 / 10 * delta < |vnorm N (tail (fun c => diag c * (lmLoop N n ipiv diag qtf delta (fuel + 1) r x sdiag fp par parl paru).2.1 c) 0 n) - delta|) := by
  intro fuel
  induction fuel with
  | zero =>
    intro r x sdiag fp par parl paru h1 h2
    rw [lmLoop]
    dsimp only
    generalize hmu : (if par = 0 then max N.dwarf (paru * (1 / 1000)) else par) = mu
    have hpos : 0 < mu := by
      rw [← hmu]
      split
      · exact lt_max_of_lt_left hdw
      · rename_i hne; exact lt_of_le_of_ne h1 (Ne.symm hne)
    obtain ⟨q1, q2⟩ := qrsolv_spec hN hp (r := r) (diag := fun c => N.sq mu * diag c) (qtf := qtf) (sdiag := sdiag) (by
      intro p hpn
      have := (hN mu hpos.le).2
      refine mul_ne_zero (fun h0 => ?_) (hd _ (hp.lt p hpn))
      rw [h0, mul_zero] at this
      exact hpos.ne this)
    generalize qrsolv N n r ipiv (fun c => N.sq mu * diag c) qtf sdiag = q at *
    have hs : Solves n r ipiv diag qtf mu q.2 := by
      intro i hi
      have e := q2 i hi
      rw [mul_pow, sq (N.sq mu), (hN mu hpos.le).2] at e
      exact e
    split
    · exact ⟨fun p c hpn hc => q1 p c hc hpn, mu, hpos, hs, Or.inl rfl⟩
    · rename_i hc
      rw [lmLoop]
      refine ⟨fun p c hpn hc => q1 p c hc hpn, mu, hpos, hs, Or.inr ?_⟩
      push Not at hc
      exact hc.1
  | succ fuel ih =>
    intro r x sdiag fp par parl paru h1 h2
    rw [lmLoop]
    dsimp only
    generalize hmu : (if par = 0 then max N.dwarf (paru * (1 / 1000)) else par) = mu
    have hpos : 0 < mu := by
      rw [← hmu]
      split
      · exact lt_max_of_lt_left hdw
      · rename_i hne; exact lt_of_le_of_ne h1 (Ne.symm hne)
    obtain ⟨q1, q2⟩ := qrsolv_spec hN hp (r := r) (diag := fun c => N.sq mu * diag c) (qtf := qtf) (sdiag := sdiag) (by
      intro p hpn
      have := (hN mu hpos.le).2
      refine mul_ne_zero (fun h0 => ?_) (hd _ (hp.lt p hpn))
      rw [h0, mul_zero] at this
      exact hpos.ne this)
    generalize qrsolv N n r ipiv (fun c => N.sq mu * diag c) qtf sdiag = q at *
    have hs : Solves n r ipiv diag qtf mu q.2 := by
      intro i hi
      have e := q2 i hi
      rw [mul_pow, sq (N.sq mu), (hN mu hpos.le).2] at e
      exact e
    split
    · exact ⟨fun p c hpn hc => q1 p c hc hpn, mu, hpos, hs, Or.inl rfl⟩
    · generalize hpl' : (if 0 < vnorm N (tail (fun c => diag c * q.2 c) 0 n) - delta then max parl mu else parl) = parl' at *
      have hpl : 0 ≤ parl' := by
        rw [← hpl']
        split
        · exact le_max_of_le_left h2
        · exact h2
      obtain ⟨i1, mu', i2, i3, i4⟩ := ih q.1.r q.2 q.1.sdiag _ _ parl' _ (le_max_of_le_left hpl) hpl
      refine ⟨fun p c hpn hc => (i1 p c hpn hc).trans (q1 p c hc hpn), mu', i2, i3.congr fun p c hpn hc => q1 p c hc hpn, i4⟩

theorem rank_full {N : Num K} (he : 0 ≤ N.eps) {n : Nat} {r : Nat → Nat → K} (h : ∀ j k, j < n → k < n → N.eps * |r k k| ≤ |r j j|) : rank N n r = n := by
  unfold rank
  dsimp only
  rw [List.find?_eq_none.2]
  · rfl
  · intro j hj
    rw [List.mem_range] at hj
    have : ∀ (l : List Nat) (b : K), (∀ k ∈ l, k < n) → b * N.eps ≤ |r j j| → (l.map fun j => |r j j|).foldl max b * N.eps ≤ |r j j| := by
      intro l
      induction l with
      | nil => intro b _ hb; exact hb
      | cons k l ih =>
        intro b hl hb
        rw [List.map_cons, List.foldl_cons]
        refine ih _ (fun k hk => hl k (List.mem_cons_of_mem _ hk)) ?_
        rcases max_cases b |r k k| with ⟨hm, _⟩ | ⟨hm, _⟩
        · rw [hm]; exact hb
        · rw [hm, mul_comm]; exact h j k hj (hl k List.mem_cons_self)
    have h2 := this (List.range n) 0 (fun k hk => List.mem_range.1 hk) (by rw [zero_mul]; exact abs_nonneg _)
    simp only [decide_eq_true_eq, not_lt]
    exact h2

omit [IsStrictOrderedRing K] in
theorem firstPar_nonneg {par parl paru : K} (h1 : 0 ≤ par) (h2 : 0 ≤ parl) (h3 : 0 ≤ paru) {gn dx : K} (h4 : 0 ≤ gn / dx) : 0 ≤ firstPar par parl paru gn dx := by
  have h : 0 ≤ clampK par paru parl := by
    unfold clampK
    split
    · exact h3
    · split
      · exact h2
      · exact h1
  unfold firstPar
  dsimp only
  split
  · exact h4
  · exact h

/-- **C146** the step of `mpfit` (to be subtracted from the parameters): either it is not damped, is not longer than the bound by more than a tenth,
and minimizes the squares of the linearized deviates when the derivatives have full rank; or it minimizes the damped sum for some positive damping, which is the one that
is kept for the next steps whenever the step is as long as the bound within a tenth. The matrix can be used for the next trial -/
theorem C146_step {N : Num K} (hN : IsRoot N.sq) (hdw : 0 < N.dwarf) (he : 0 ≤ N.eps) {n m : Nat} (hnm : n ≤ m) {a : Nat → Nat → K} {f : Nat → K} {q : QR K}
    (h : Fact N n m a f q) {d : Nat → K} (hd : ∀ p, p < n → d p ≠ 0) {delta par : K} (hdelta : 0 < delta) (hpar : 0 ≤ par) :
    let t := lmpar N n q d delta par
    Fact N n m a f t.1 ∧
      ((t.2.2 = 0 ∧ ∑ l ∈ Finset.range n, (d l * t.2.1 l) ^ 2 ≤ (11 / 10 * delta) ^ 2 ∧
          ((∀ j k, j < n → k < n → N.eps * |q.r k k| ≤ |q.r j j|) → (∀ j, j < n → q.r j j ≠ 0) →
            ∀ y, ∑ c ∈ Finset.range m, linDev n a f t.2.1 c ^ 2 ≤ ∑ c ∈ Finset.range m, linDev n a f y c ^ 2)) ∨
        ∃ mu, 0 < mu ∧ (∀ y, damped n m a f d mu t.2.1 ≤ damped n m a f d mu y) ∧
          (t.2.2 = mu ∨ ∑ l ∈ Finset.range n, (d l * t.2.1 l) ^ 2 < (9 / 10 * delta) ^ 2 ∨ (11 / 10 * delta) ^ 2 < ∑ l ∈ Finset.range n, (d l * t.2.1 l) ^ 2)) := by
  intro t
  have hp : Perm n q.ipiv := by rw [h.ipiv]; exact (C145_factor hN hnm a f).1
  have hnorm : ∀ v : Nat → K, 0 ≤ vnorm N (tail v 0 n) ∧ vnorm N (tail v 0 n) ^ 2 = ∑ l ∈ Finset.range n, v l ^ 2 := by
    intro v
    obtain ⟨h1, h2⟩ := vnorm_tail hN v 0 n
    refine ⟨h1, ?_⟩
    rw [sq, h2]
    unfold dot
    rw [Finset.range_eq_Ico]
    exact Finset.sum_congr rfl fun c _ => (sq _).symm
  have ht : t = lmpar N n q d delta par := rfl
  generalize t = t at *
  unfold lmpar at ht
  dsimp only at ht
  generalize hx : unpiv n q.ipiv (fun _ => 0) (newton N n q.r q.qtf) = x at *
  obtain ⟨n1, n2⟩ := hnorm fun c => d c * x c
  generalize vnorm N (tail (fun c => d c * x c) 0 n) = dx at *
  by_cases hfp : dx - delta ≤ 1 / 10 * delta
  · rw [if_pos hfp] at ht
    subst ht
    refine ⟨h, Or.inl ⟨rfl, ?_, ?_⟩⟩
    · dsimp only
      rw [← n2]
      exact pow_le_pow_left₀ n1 (by linarith) 2
    · intro hrank hr y
      have hs : Solves n q.r q.ipiv d q.qtf 0 x := by
        intro i hi
        have hu := unpiv_spec hp (fun _ => 0) (newton N n q.r q.qtf)
        rw [hx] at hu
        have hz := newton_spec (qtf := q.qtf) (rank_full he hrank) hr
        rw [zero_mul, zero_mul, add_zero, Finset.sum_congr rfl fun c hc => by rw [hu c (Finset.mem_range.1 hc)]]
        rw [Finset.sum_congr rfl fun c _ => Finset.sum_mul _ _ _, Finset.sum_comm]
        rw [← Finset.sum_subset (Finset.range_subset_range.2 (show i + 1 ≤ n by omega))]
        · refine Finset.sum_congr rfl fun k hk => ?_
          rw [Finset.mem_range] at hk
          rw [Finset.sum_congr rfl fun c _ => mul_assoc _ _ _, ← Finset.mul_sum, hz k (by omega)]
          unfold tri
          rw [if_pos (by omega)]
        · intro k _ hk
          rw [Finset.mem_range] at hk
          refine Finset.sum_eq_zero fun c _ => ?_
          unfold tri
          rw [if_neg (by omega), zero_mul, zero_mul]
      have := damped_min (le_refl (0 : K)) (h.normal hN hnm hs) y
      unfold damped at this
      rw [zero_mul, zero_mul, add_zero, add_zero] at this
      exact this
  · rw [if_neg hfp] at ht
    obtain ⟨t1, _⟩ := hnorm (forwSub n q.r fun j => d (q.ipiv j) * (d (q.ipiv j) * x (q.ipiv j)) / dx)
    generalize vnorm N (tail (forwSub n q.r fun j => d (q.ipiv j) * (d (q.ipiv j) * x (q.ipiv j)) / dx) 0 n) = temp at *
    obtain ⟨g1, _⟩ := hnorm fun j => (∑ k ∈ Finset.range (j + 1), q.r j k * q.qtf k) / d (q.ipiv j)
    generalize vnorm N (tail (fun j => (∑ k ∈ Finset.range (j + 1), q.r j k * q.qtf k) / d (q.ipiv j)) 0 n) = gn at *
    have hfp0 : 0 ≤ dx - delta := by
      have : 0 ≤ 1 / 10 * delta := by positivity
      linarith [not_le.1 hfp]
    have hparl : 0 ≤ if n ≤ rank N n q.r then (dx - delta) / delta / temp / temp else 0 := by
      split
      · positivity
      · exact le_refl _
    generalize (if n ≤ rank N n q.r then (dx - delta) / delta / temp / temp else 0) = parl at *
    have hparu : 0 ≤ if gn / delta = 0 then N.dwarf / min delta (1 / 10) else gn / delta := by
      split
      · exact div_nonneg hdw.le (le_min hdelta.le (by norm_num))
      · positivity
    generalize (if gn / delta = 0 then N.dwarf / min delta (1 / 10) else gn / delta) = paru at *
    have hf0 := firstPar_nonneg hpar hparl hparu (div_nonneg g1 n1)
    obtain ⟨l1, mu, l2, l3, l4⟩ := lmLoop_spec hN hdw hp hd (qtf := q.qtf) (delta := delta) 9 q.r x (fun _ => 0) (dx - delta)
      (firstPar par parl paru gn dx) parl paru hf0 hparl
    subst ht
    dsimp only
    generalize lmLoop N n q.ipiv d q.qtf delta (9 + 1) q.r x (fun _ => 0) (dx - delta) (firstPar par parl paru gn dx) parl paru = u at *
    refine ⟨⟨h.ipiv, h.qtf, fun p c hpn hc => (l1 p c hpn hc).trans (h.r p c hpn hc)⟩, Or.inr ⟨mu, l2, damped_min l2.le (h.normal hN hnm l3), ?_⟩⟩
    rcases l4 with l4 | l4
    · exact Or.inl l4
    · right
      obtain ⟨m1, m2⟩ := hnorm fun c => d c * u.2.1 c
      rw [← m2]
      rcases lt_abs.1 l4 with l4 | l4
      · right
        exact pow_lt_pow_left₀ (by linarith) (by positivity) (by norm_num)
      · left
        exact pow_lt_pow_left₀ (by linarith) m1 (by norm_num)

/-- the factorization itself can be used -/
theorem Fact.self (N : Num K) (n m : Nat) (a : Nat → Nat → K) (f : Nat → K) : Fact N n m a f (factor N n m a f) := ⟨rfl, rfl, fun _ _ _ _ => rfl⟩

/-- the hypotheses of `C146_step` hold for real numbers, any derivatives and a bound of 1 -/
example (a : Nat → Nat → ℝ) (f : Nat → ℝ) : let N : Num ℝ := ⟨Real.sqrt, 1 / 2 ^ 52, 1 / 2 ^ 26, 1 / 2 ^ 1022, 2 ^ 1023⟩
    IsRoot N.sq ∧ 0 < N.dwarf ∧ 0 ≤ N.eps ∧ Fact N 2 3 a f (factor N 2 3 a f) := by
  refine ⟨fun s hs => ⟨Real.sqrt_nonneg s, Real.mul_self_sqrt hs⟩, by positivity, by positivity, Fact.self _ _ _ _ _⟩

/-- a step that is not damped, for the derivatives `(3, 4)` and `(0, 5)` and the deviates `(3, 9)`: it is `(1, 1)`, where the linearized deviates are zero -/
example :
    let N : Num ℚ := ⟨Rat.sqrt, 1 / 2 ^ 52, 1 / 2 ^ 26, 1 / 2 ^ 1022, 2 ^ 1023⟩
    let q := factor N 2 2 (fun p c => if p = 0 then (if c = 0 then 3 else 4) else if c = 0 then 0 else 5) (fun c => if c = 0 then 3 else 9)
    let t := lmpar N 2 q (fun _ => 1) 10 0
    t.2.1 0 = 1 ∧ t.2.1 1 = 1 ∧ t.2.2 = 0 := by decide +kernel

omit [IsStrictOrderedRing K] in
/-- **C146 (refuted)** "the damping of the previous step is used again when it lies between the bounds": the bounds are exchanged in the call, and the search begins at the upper
bound -/
theorem C146_start_refuted {par parl paru gn dx : K} (h : par < paru) (h0 : paru ≠ 0) : firstPar par parl paru gn dx = paru := by
  unfold firstPar clampK
  dsimp only
  rw [if_pos h, if_neg h0]

/-- between 1 and 3, a damping of 2 is replaced by 3 -/
example : firstPar 2 1 3 1 1 = (3 : ℚ) := by decide +kernel

end Verif.Mpfit
