import Verif.Astro.FieldAreaH2d
import Verif.Astro.FieldAreaProps
import Verif.Astro.InflateProps
import Verif.Math.HistProps
import Verif.Math.OrderProps
import Verif.Math.StatsProps
import Mathlib.Data.List.Perm.Subperm
import Mathlib.Algebra.BigOperators.Fin
/-!
# Lemmas for C179: bins, nearest sources, filling factors
-/
namespace Verif.Astro
open Verif Verif.Core Verif.Coord Verif.Math Real

/-- Spec: edge `k` of `n` equal steps from `lo` to `hi`. -/
noncomputable def edge (lo hi : ℝ) (n k : Nat) : ℝ := lo + k * ((hi - lo) / n)

/-- the edges of `make_bins` -/
noncomputable def edges (lo hi : ℝ) (n : Nat) : List ℝ := (List.range (n + 1)).map (edge lo hi n)

theorem edges_length (lo hi : ℝ) (n : Nat) : (edges lo hi n).length = n + 1 := by simp [edges]

theorem edges_get (lo hi : ℝ) (n i : Nat) (h : i < (edges lo hi n).length) : (edges lo hi n)[i] = edge lo hi n i := by
  simp [edges]

theorem edge_mono {lo hi : ℝ} (h : lo ≤ hi) (n : Nat) {i j : Nat} (hij : i ≤ j) : edge lo hi n i ≤ edge lo hi n j := by
  have h1 : 0 ≤ (hi - lo) / (n : ℝ) := div_nonneg (by linarith) (by positivity)
  have h2 : (i : ℝ) ≤ j := by exact_mod_cast hij
  have := mul_le_mul_of_nonneg_right h2 h1
  unfold edge; linarith

theorem edges_sorted {lo hi : ℝ} (h : lo ≤ hi) (n : Nat) : (edges lo hi n).Pairwise (· ≤ ·) := by
  rw [List.pairwise_iff_getElem]
  intro i j hi hj hij
  rw [edges_get, edges_get]
  exact edge_mono h n hij.le

theorem bins_isBins (lo hi : ℝ) (n : Nat) : IsBins (someBins (makeBins lo hi n)) (edgeBins (edges lo hi n)) := by
  have hl := edges_length lo hi n
  have hel := edgeBins_length (edges lo hi n)
  constructor
  · simp [someBins, makeBins, hel, hl]
  · simp only [someBins, makeBins, edgeBins, List.map_append, List.map_map]
    congr 1
    · apply List.ext_getElem (by simp [hl])
      intro i h1 h2
      simp [edges_get, edge]
    · apply List.ext_getElem (by simp [hl])
      intro i h1 h2
      simp [edges_get, edge]

theorem bins_get (lo hi : ℝ) (n i : Nat) (h : i < n) :
    (edgeBins (edges lo hi n))[i]? = some (some (edge lo hi n i), some (edge lo hi n (i + 1))) := by
  have hl := edges_length lo hi n
  rw [edgeBins_get _ i (by omega), edges_get, edges_get]

theorem bins_lt (lo hi : ℝ) (n i : Nat) (b : Bin ℝ) (h : (edgeBins (edges lo hi n))[i]? = some b) :
    i < n ∧ b = (some (edge lo hi n i), some (edge lo hi n (i + 1))) := by
  have h1 := (List.getElem?_eq_some_iff.1 h).1
  rw [edgeBins_length, edges_length, Nat.add_sub_cancel] at h1
  refine ⟨h1, ?_⟩
  rw [bins_get _ _ _ _ h1] at h
  exact (Option.some.inj h).symm

theorem bins_rd_lo (lo hi : ℝ) (n i : Nat) (h : i < n) : Res.rd (makeBins lo hi n).data i = .ok (edge lo hi n i) := by
  rw [Res.rd_eq_ok]
  simp only [makeBins, edge]
  rw [List.getElem?_append_left (by simpa using h)]
  simp [h]

theorem bins_rd_hi (lo hi : ℝ) (n i : Nat) (h : i < n) :
    Res.rd (makeBins lo hi n).data (n + i) = .ok (edge lo hi n (i + 1)) := by
  rw [Res.rd_eq_ok]
  simp [makeBins, h, edge]

/-! ### The nearest source -/

/-- the set of the values that `dmin[i]` has seen -/
def LeastOf (S : Set ℝ) (o : Option ℝ) : Prop :=
  (o = none ∧ S = ∅) ∨ ∃ d, o = some d ∧ IsLeast S d

theorem leastOf_lower {S : Set ℝ} {o : Option ℝ} (h : LeastOf S o) (t : ℝ) : LeastOf (insert t S) (lower t o) := by
  rcases h with ⟨rfl, rfl⟩ | ⟨d, rfl, hm, hl⟩
  · right
    exact ⟨t, rfl, by simp, fun x hx => by simp at hx; exact hx.ge⟩
  · right
    unfold lower
    simp only
    split
    · rename_i h
      refine ⟨t, rfl, by simp, fun x hx => ?_⟩
      rcases hx with rfl | hx
      · exact le_refl _
      · exact h.le.trans (hl hx)
    · rename_i h
      refine ⟨d, rfl, by simp [hm], fun x hx => ?_⟩
      rcases hx with rfl | hx
      · exact not_lt.1 h
      · exact hl hx

theorem proxy_comm (p q : ℝ × ℝ) : proxy p q = proxy q p := by
  unfold proxy hav
  simp only
  rw [show 0.5 * (q.1 * d2r - p.1 * d2r) = -(0.5 * (p.1 * d2r - q.1 * d2r)) by ring,
    show 0.5 * (q.2 * d2r - p.2 * d2r) = -(0.5 * (p.2 * d2r - q.2 * d2r)) by ring, sin_neg, sin_neg]
  ring

/-- the pairs seen when the loops are at `(i, j)` -/
def Seen (i j a b : Nat) : Prop := a < i ∨ (a = i ∧ b < j)

/-- the values seen by element `k` -/
def seenBy (p : List (ℝ × ℝ)) (i j k : Nat) : Set ℝ :=
  {x | ∃ l, l < p.length ∧ ((k < l ∧ Seen i j k l) ∨ (l < k ∧ Seen i j l k)) ∧ x = proxy (p.getD k (0, 0)) (p.getD l (0, 0))}

/-- invariant of the loops -/
def NInv (p : List (ℝ × ℝ)) (i j : Nat) (dm : List (Option ℝ)) : Prop :=
  dm.length = p.length ∧ ∀ k, k < p.length → ∃ o, dm[k]? = some o ∧ LeastOf (seenBy p i j k) o

theorem ninv_step (p : List (ℝ × ℝ)) (i j : Nat) (dm : List (Option ℝ)) (hij : i < j) (hj : j < p.length) (h : NInv p i j dm) :
    NInv p i (j + 1) ((dm.modify i (lower (proxy (p.getD i (0, 0)) (p.getD j (0, 0))))).modify j
      (lower (proxy (p.getD i (0, 0)) (p.getD j (0, 0))))) := by
  obtain ⟨h1, h2⟩ := h
  refine ⟨by simp [h1], fun k hk => ?_⟩
  obtain ⟨o, ho, hL⟩ := h2 k hk
  rcases eq_or_ne k i with rfl | hki
  · refine ⟨lower (proxy (p.getD k (0, 0)) (p.getD j (0, 0))) o, by
      rw [List.getElem?_modify, List.getElem?_modify, ho]; simp [show ¬ j = k by omega], ?_⟩
    have : seenBy p k (j + 1) k = insert (proxy (p.getD k (0, 0)) (p.getD j (0, 0))) (seenBy p k j k) := by
      ext x
      simp only [seenBy, Set.mem_setOf_eq, Set.mem_insert_iff]
      constructor
      · rintro ⟨l, hl, hc, rfl⟩
        rcases eq_or_ne l j with rfl | hlj
        · exact Or.inl rfl
        · exact Or.inr ⟨l, hl, by unfold Seen at *; omega, rfl⟩
      · rintro (rfl | ⟨l, hl, hc, rfl⟩)
        · exact ⟨j, hj, by unfold Seen; omega, rfl⟩
        · exact ⟨l, hl, by unfold Seen at *; omega, rfl⟩
    rw [this]
    exact leastOf_lower hL _
  · rcases eq_or_ne k j with rfl | hkj
    · refine ⟨lower (proxy (p.getD i (0, 0)) (p.getD k (0, 0))) o, by
        rw [List.getElem?_modify, List.getElem?_modify, ho]; simp [show ¬ i = k by omega], ?_⟩
      have : seenBy p i (k + 1) k = insert (proxy (p.getD i (0, 0)) (p.getD k (0, 0))) (seenBy p i k k) := by
        ext x
        simp only [seenBy, Set.mem_setOf_eq, Set.mem_insert_iff]
        constructor
        · rintro ⟨l, hl, hc, rfl⟩
          rcases eq_or_ne l i with rfl | hlj
          · exact Or.inl (proxy_comm _ _)
          · exact Or.inr ⟨l, hl, by unfold Seen at *; omega, rfl⟩
        · rintro (rfl | ⟨l, hl, hc, rfl⟩)
          · exact ⟨i, by omega, by unfold Seen; omega, proxy_comm _ _⟩
          · exact ⟨l, hl, by unfold Seen at *; omega, rfl⟩
      rw [this]
      exact leastOf_lower hL _
    · refine ⟨o, by
        rw [List.getElem?_modify, List.getElem?_modify, ho]; simp [show ¬ i = k by omega, show ¬ j = k by omega], ?_⟩
      have : seenBy p i (j + 1) k = seenBy p i j k := by
        ext x
        simp only [seenBy, Set.mem_setOf_eq]
        constructor
        · rintro ⟨l, hl, hc, rfl⟩
          exact ⟨l, hl, by unfold Seen at *; omega, rfl⟩
        · rintro ⟨l, hl, hc, rfl⟩
          exact ⟨l, hl, by unfold Seen at *; omega, rfl⟩
      rw [this]
      exact hL

theorem ninv_congr {p : List (ℝ × ℝ)} {i j i' j' : Nat} {dm : List (Option ℝ)} (h : NInv p i j dm)
    (hs : ∀ a b, a < b → b < p.length → (Seen i j a b ↔ Seen i' j' a b)) : NInv p i' j' dm := by
  refine ⟨h.1, fun k hk => ?_⟩
  obtain ⟨o, ho, hL⟩ := h.2 k hk
  refine ⟨o, ho, ?_⟩
  have : seenBy p i' j' k = seenBy p i j k := by
    ext x
    simp only [seenBy, Set.mem_setOf_eq]
    constructor
    · rintro ⟨l, hl, (⟨h1, h2⟩ | ⟨h1, h2⟩), rfl⟩
      · exact ⟨l, hl, Or.inl ⟨h1, (hs k l h1 hl).2 h2⟩, rfl⟩
      · exact ⟨l, hl, Or.inr ⟨h1, (hs l k h1 hk).2 h2⟩, rfl⟩
    · rintro ⟨l, hl, (⟨h1, h2⟩ | ⟨h1, h2⟩), rfl⟩
      · exact ⟨l, hl, Or.inl ⟨h1, (hs k l h1 hl).1 h2⟩, rfl⟩
      · exact ⟨l, hl, Or.inr ⟨h1, (hs l k h1 hk).1 h2⟩, rfl⟩
  rw [this]
  exact hL

theorem foldl_range'_inv {σ : Type} (I : Nat → σ → Prop) (f : σ → Nat → σ) :
    ∀ (n a : Nat) (s : σ), I a s → (∀ i s, a ≤ i → i < a + n → I i s → I (i + 1) (f s i)) →
      I (a + n) ((List.range' a n).foldl f s)
  | 0, a, s, h0, _ => by simpa using h0
  | n + 1, a, s, h0, h => by
    rw [List.range'_succ, List.foldl_cons]
    have := foldl_range'_inv I f n (a + 1) (f s a) (h a s (by omega) (by omega) h0)
      (fun i s h1 h2 => h i s (by omega) (by omega))
    rwa [show a + 1 + n = a + (n + 1) by omega] at this

theorem ninv_inner (p : List (ℝ × ℝ)) (i : Nat) (dm : List (Option ℝ)) (hi : i < p.length) (h : NInv p i 0 dm) :
    NInv p (i + 1) 0 (nearestInner p dm i) := by
  have h0 : NInv p i (i + 1) dm := ninv_congr h (by intro a b hab hb; unfold Seen; omega)
  have := foldl_range'_inv (fun j dm => NInv p i j dm) _ (p.length - (i + 1)) (i + 1) dm h0
    (fun j dm h1 h2 hI => ninv_step p i j dm (by omega) (by omega) hI)
  refine ninv_congr this ?_
  intro a b hab hb; unfold Seen; omega

/-- `dmin[k]` is the least proxy of the distance between source `k` and the others. -/
theorem nearestLoop_spec (p : List (ℝ × ℝ)) : (nearestLoop p).length = p.length ∧
    ∀ k, k < p.length → ∃ o, (nearestLoop p)[k]? = some o ∧
      LeastOf {x | ∃ l, l < p.length ∧ l ≠ k ∧ x = proxy (p.getD k (0, 0)) (p.getD l (0, 0))} o := by
  have h0 : NInv p 0 0 (List.replicate p.length none) := by
    refine ⟨by simp, fun k hk => ⟨none, by simp [hk], Or.inl ⟨rfl, ?_⟩⟩⟩
    ext x
    simp only [seenBy, Seen, Set.mem_setOf_eq, Set.mem_empty_iff_false, iff_false]
    rintro ⟨l, -, h, -⟩
    omega
  have := foldl_range'_inv (fun i dm => NInv p i 0 dm) (nearestInner p) p.length 0 _ h0
    (fun i dm h1 h2 hI => ninv_inner p i dm (by omega) hI)
  rw [← List.range_eq_range', Nat.zero_add] at this
  refine ⟨this.1, fun k hk => ?_⟩
  obtain ⟨o, ho, hL⟩ := this.2 k hk
  refine ⟨o, ho, ?_⟩
  have : seenBy p p.length 0 k = {x | ∃ l, l < p.length ∧ l ≠ k ∧ x = proxy (p.getD k (0, 0)) (p.getD l (0, 0))} := by
    ext x
    simp only [seenBy, Seen, Set.mem_setOf_eq]
    constructor
    · rintro ⟨l, hl, hc, rfl⟩
      exact ⟨l, hl, by omega, rfl⟩
    · rintro ⟨l, hl, hc, rfl⟩
      exact ⟨l, hl, by omega, rfl⟩
  rwa [← this]

end Verif.Astro
