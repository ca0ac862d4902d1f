import Verif.Math.HullBuild
import Mathlib.Analysis.Convex.Hull
import Mathlib.Analysis.Convex.Combination
import Mathlib.Algebra.Order.Ring.Rat
import Mathlib.Algebra.Field.Rat
import Mathlib.Tactic.LinearCombination
/-!
# C33: the convex hull of a set of points
-/
namespace Verif.Hull
open Verif

variable {K : Type} [LinearOrder K] [Field K] [IsStrictOrderedRing K]

/-- coordinates of an index -/
def ptOf (pts : List (K × K)) (i : Nat) : K × K := pts.getD i (0, 0)

/-- the points are on one line -/
def Collinear (pts : List (K × K)) : Prop := ∀ a ∈ pts, ∀ b ∈ pts, ∀ c ∈ pts, cross3 a b c = 0

section glue
variable {ι : Type}

theorem zip_tail_snoc (a b : ι) : ∀ m : List ι, (m ++ [b] ++ [a]).zip (m ++ [b] ++ [a]).tail = (m ++ [b]).zip (m ++ [b]).tail ++ [(b, a)]
  | [] => rfl
  | [x] => rfl
  | x :: y :: m => by
    have := zip_tail_snoc a b (y :: m)
    simp only [List.cons_append, List.tail_cons, List.zip_cons_cons] at this ⊢
    rw [this]

theorem mem_zip_tail {d c : ι} : ∀ s : List ι, (d, c) ∈ s.reverse.zip s.reverse.tail ↔ Edge d c s
  | [] => by simp [Edge]
  | [_] => by simp [Edge]
  | a :: b :: s => by
    rw [List.reverse_cons, List.reverse_cons, zip_tail_snoc, List.mem_append, ← List.reverse_cons, mem_zip_tail (b :: s)]
    simp only [List.mem_singleton, Prod.mk.injEq, Edge]
    exact or_comm

theorem turn_of_getElem {c b a : ι} : ∀ (s : List ι) (i : Nat), s[i]? = some a → s[i + 1]? = some b → s[i + 2]? = some c → Turn c b a s
  | [], i, h, _, _ => by simp at h
  | [_], i, _, h, _ => by simp at h
  | [_, _], i, _, _, h => by simp at h
  | x :: y :: z :: s, 0, h1, h2, h3 => by
    simp at h1 h2 h3
    exact .inl ⟨h1.symm, h2.symm, h3.symm⟩
  | x :: y :: z :: s, i + 1, h1, h2, h3 => .inr (turn_of_getElem (y :: z :: s) i (by simpa using h1) (by simpa using h2) (by simpa using h3))

theorem Turn.split {c b a h : ι} : ∀ {s base : List ι}, Turn c b a (s ++ h :: base) →
    Turn c b a (s ++ [h]) ∨ Turn c b a (h :: base) ∨ (s.getLast? = some a ∧ b = h ∧ base.head? = some c)
  | [], _, ht => .inr (.inl ht)
  | [x], [], ht => ht.elim
  | [x], y :: base, ht => by
    rcases ht with ⟨rfl, rfl, rfl⟩ | ht
    · exact .inr (.inr ⟨rfl, rfl, rfl⟩)
    · exact .inr (.inl ht)
  | [x, y], base, ht => by
    rcases ht with ⟨rfl, rfl, rfl⟩ | ht
    · exact .inl (.inl ⟨rfl, rfl, rfl⟩)
    · rcases Turn.split (s := [y]) ht with h | h | h
      · exact h.elim
      · exact .inr (.inl h)
      · exact .inr (.inr h)
  | x :: y :: z :: s, base, ht => by
    rcases ht with ht | ht
    · exact .inl (.inl ht)
    · rcases Turn.split (s := y :: z :: s) ht with h | h | h
      · exact .inl (.inr h)
      · exact .inr (.inl h)
      · exact .inr (.inr (by simpa using h))

end glue

section chains
variable {ι : Type} {pt : ι → K × K} {ids : List ι} {v h : ι} {U L : List ι}

/-- all points are on the left of the edges of one pass -/
theorem Inv.left {Q : ι → Prop} {s : List ι} (hI : Inv pt Q s) {d c : ι} (he : Edge d c s) (q : ι) (hq : Q q) :
    0 ≤ cross3 (pt d) (pt c) (pt q) := by
  rcases hI.1 with hc | ⟨a, b, rfl, hab⟩
  · exact hc.left (hI.2 q hq) d c he
  · rcases he with ⟨rfl, rfl⟩ | he
    · rw [hab]; simp [cross3]
    · exact he.elim

theorem Chains.left (hc : Chains pt ids v h U L) {d c : ι} (he : Edge d c (v :: (U ++ h :: (L ++ [v])))) (q : ι) (hq : q ∈ ids) :
    0 ≤ cross3 (pt d) (pt c) (pt q) := by
  rcases Edge.split (s := v :: U) he with he | he
  · have := hc.up.left he q hq
    rwa [cross3_neg] at this
  · exact hc.low.left he q hq

theorem Inv.special {Q : ι → Prop} {s : List ι} (hI : Inv pt Q s) (h : ¬ Conv pt s) : ∃ x : K × K, s.length = 2 ∧ ∀ q, Q q → pt q = x := by
  obtain ⟨a, b, rfl, hab⟩ := hI.1.resolve_left h
  refine ⟨pt b, rfl, fun q hq => ?_⟩
  rcases hI.2 q hq with ⟨g1, g2, _⟩ | g
  · rw [hab] at g2
    exact le_antisymm_ g2 g1
  · exact g

/-- with points off a line, both passes give proper chains, and there are at least three vertices -/
theorem Chains.proper (hc : Chains pt ids v h U L) (hn : ∃ a ∈ ids, ∃ b ∈ ids, ∃ c ∈ ids, cross3 (pt a) (pt b) (pt c) ≠ 0) :
    Conv pt (h :: (L ++ [v])) ∧ Conv (fun i => -pt i) (v :: (U ++ [h])) ∧ 2 ≤ (U ++ h :: L).length := by
  obtain ⟨a, ha, b, hb, c, hc', hne⟩ := hn
  refine ⟨?_, ?_, ?_⟩
  · by_contra hcon
    obtain ⟨x, _, hx⟩ := hc.low.special hcon
    apply hne
    rw [hx a ha, hx b hb, hx c hc']; simp [cross3]
  · by_contra hcon
    obtain ⟨x, _, hx⟩ := hc.up.special hcon
    apply hne
    rw [← cross3_neg, show -pt a = x from hx a ha, show -pt b = x from hx b hb, show -pt c = x from hx c hc']; simp [cross3]
  · by_contra hlen
    have hU : U = [] := by cases U with
      | nil => rfl
      | cons x U => simp at hlen
    have hL : L = [] := by subst hU; cases L with
      | nil => rfl
      | cons x U => simp at hlen
    subst hU; subst hL
    have hz : ∀ q ∈ ids, cross3 (pt v) (pt h) (pt q) = 0 := by
      intro q hq
      have h1 := hc.left (d := v) (c := h) (.inr (.inl ⟨rfl, rfl⟩)) q hq
      have h2 := hc.left (d := h) (c := v) (.inl ⟨rfl, rfl⟩) q hq
      have e : cross3 (pt h) (pt v) (pt q) = - cross3 (pt v) (pt h) (pt q) := by simp [cross3]; ring
      rw [e] at h2
      linarith
    have hvh : pt v ≠ pt h ∨ pt v = pt h := ne_or_eq _ _
    rcases hvh with hvh | hvh
    · apply hne
      have za := hz a ha; have zb := hz b hb; have zc := hz c hc'
      have hd : (pt h).1 - (pt v).1 ≠ 0 ∨ (pt h).2 - (pt v).2 ≠ 0 := by
        by_contra hcon
        rw [not_or, not_not, not_not] at hcon
        exact hvh (Prod.ext (by linarith [hcon.1]) (by linarith [hcon.2]))
      unfold cross3 at za zb zc ⊢
      rcases hd with hd | hd
      · refine (mul_left_cancel₀ hd ?_)
        linear_combination ((pt c).1 - (pt b).1) * za + ((pt a).1 - (pt c).1) * zb + ((pt b).1 - (pt a).1) * zc
      · refine (mul_left_cancel₀ hd ?_)
        linear_combination ((pt c).2 - (pt b).2) * za + ((pt a).2 - (pt c).2) * zb + ((pt b).2 - (pt a).2) * zc
    · apply hne
      -- all points are equal
      have hall : ∀ q ∈ ids, pt q = pt v := by
        intro q hq
        have hc0 : Cover pt (pt q) [h, v] := hc.low.2 q hq
        rcases hc0 with ⟨g1, g2, _⟩ | g
        · rw [← hvh] at g2
          exact le_antisymm_ g2 g1
        · exact g
      rw [hall a ha, hall b hb, hall c hc']; simp [cross3]

/-- the fan of triangles from the first vertex -/
theorem Chains.fan (h1 : Conv pt (h :: (L ++ [v]))) (h2 : Conv (fun i => -pt i) (v :: (U ++ [h]))) {d c : ι}
    (he : Edge d c (U ++ h :: L)) : 0 < cross3 (pt v) (pt d) (pt c) := by
  rcases Edge.split he with he | he
  · have := Conv.left_top' h2 he
    rwa [cross3_neg] at this
  · exact Conv.left_bottom' (l := h :: L) h1 he

/-- the fan of triangles from the opposite vertex -/
theorem Chains.fan' (h1 : Conv pt (h :: (L ++ [v]))) (h2 : Conv (fun i => -pt i) (v :: (U ++ [h]))) {d c : ι}
    (he : Edge d c (L ++ v :: U)) : 0 < cross3 (pt h) (pt d) (pt c) := by
  rcases Edge.split he with he | he
  · exact Conv.left_top' h1 he
  · have := Conv.left_bottom' (l := v :: U) h2 he
    rwa [cross3_neg] at this

theorem ends_of_two {l : List ι} (h : 2 ≤ l.length) : ∃ b m a, l = b :: (m ++ [a]) := by
  match l, h with
  | b :: x :: t, _ =>
    obtain ⟨m, a, e⟩ := List.eq_nil_or_concat (x :: t) |>.resolve_left (by simp)
    exact ⟨b, m, a, by rw [e, List.concat_eq_append]⟩

theorem Chains.turn_v (h1 : Conv pt (h :: (L ++ [v]))) (h2 : Conv (fun i => -pt i) (v :: (U ++ [h]))) (hlen : 2 ≤ (U ++ h :: L).length)
    {x y : ι} (hx : (U ++ h :: L).head? = some x) (hy : (U ++ h :: L).getLast? = some y) : 0 < cross3 (pt x) (pt v) (pt y) := by
  obtain ⟨b, m, a, e⟩ := ends_of_two hlen
  have hfan := fan_total (pt := pt) (pt v) m a b (fun z hz => ?_) (fun d c he => Chains.fan h1 h2 (by rw [e]; exact he))
  · rw [e] at hx hy
    simp at hx
    rw [← List.cons_append, List.getLast?_append] at hy
    simp at hy
    subst hx; subst hy
    have e' : cross3 (pt b) (pt v) (pt a) = cross3 (pt v) (pt a) (pt b) := by simp [cross3]; ring
    rw [e']; exact hfan
  · rw [← e] at hz
    have hz' : z ∈ U ++ [h] ∨ z ∈ h :: L := by simp at hz ⊢; tauto
    rcases hz' with hz | hz
    · have := Conv.lt_top h2 hz
      have e3 : lp (-pt v - -pt z) := this
      rwa [neg_sub_neg] at e3
    · exact Conv.lt_bottom (l := h :: L) h1 hz

theorem Chains.turn_h (h1 : Conv pt (h :: (L ++ [v]))) (h2 : Conv (fun i => -pt i) (v :: (U ++ [h]))) (hlen : 2 ≤ (U ++ h :: L).length)
    {x y : ι} (hx : (L ++ [v]).head? = some x) (hy : (v :: U).getLast? = some y) : 0 < cross3 (pt x) (pt h) (pt y) := by
  have hlen' : 2 ≤ (L ++ v :: U).length := by simp at hlen ⊢; omega
  obtain ⟨b, m, a, e⟩ := ends_of_two hlen'
  have hfan := fan_total (pt := fun i => -pt i) (-pt h) m a b (fun z hz => ?_)
    (fun d c he => by rw [cross3_neg]; exact Chains.fan' h1 h2 (by rw [e]; exact he))
  · have hx' : (L ++ v :: U).head? = some x := by
      cases L with
      | nil => simpa using hx
      | cons a L => simpa using hx
    have hy' : (L ++ v :: U).getLast? = some y := by rw [List.getLast?_append, hy]; rfl
    rw [e] at hx' hy'
    simp at hx'
    rw [← List.cons_append, List.getLast?_append] at hy'
    simp at hy'
    subst hx'; subst hy'
    rw [cross3_neg] at hfan
    have e' : cross3 (pt b) (pt h) (pt a) = cross3 (pt h) (pt a) (pt b) := by simp [cross3]; ring
    rw [e']; exact hfan
  · rw [← e] at hz
    have hz' : z ∈ L ++ [v] ∨ z ∈ v :: U := by simp at hz ⊢; tauto
    rcases hz' with hz | hz
    · have e3 : lp (pt h - pt z) := Conv.lt_top h1 hz
      rw [neg_sub_neg]; exact e3
    · exact Conv.lt_bottom (pt := fun i => -pt i) (l := v :: U) h2 hz

theorem fan_tri (w p : K × K) : ∀ (l : List ι) (a b : ι), 0 ≤ cross3 w (pt a) p → cross3 w (pt b) p ≤ 0 →
    ∃ d c, Edge d c (b :: (l ++ [a])) ∧ 0 ≤ cross3 w (pt d) p ∧ cross3 w (pt c) p ≤ 0
  | [], a, b, ha, hb => ⟨a, b, .inl ⟨rfl, rfl⟩, ha, hb⟩
  | x :: l, a, b, ha, hb => by
    rcases le_total 0 (cross3 w (pt x) p) with hx | hx
    · exact ⟨x, b, .inl ⟨rfl, rfl⟩, hx, hb⟩
    · obtain ⟨d, c, h1, h2⟩ := fan_tri w p l a x ha hx
      exact ⟨d, c, .inr h1, h2⟩

theorem edge_mem {d c : ι} : ∀ {s : List ι}, Edge d c s → d ∈ s ∧ c ∈ s
  | [], h => h.elim
  | [_], h => h.elim
  | a :: b :: s, h => by
    rcases h with ⟨rfl, rfl⟩ | h
    · simp
    · exact (edge_mem h).imp (List.mem_cons_of_mem _) (List.mem_cons_of_mem _)

end chains

/-- a point of a triangle -/
theorem tri_mem {s : Set (K × K)} {a b c p : K × K} (ha : a ∈ s) (hb : b ∈ s) (hc : c ∈ s) (hD : 0 < cross3 a b c)
    (h1 : 0 ≤ cross3 a b p) (h2 : 0 ≤ cross3 b c p) (h3 : 0 ≤ cross3 c a p) : p ∈ convexHull K s := by
  have hs : cross3 b c p + cross3 c a p + cross3 a b p = cross3 a b c := by simp [cross3]; ring
  have e : p = (cross3 b c p / cross3 a b c) • a + (cross3 c a p / cross3 a b c) • b + (cross3 a b p / cross3 a b c) • c := by
    have hne := hD.ne'
    have k1 : cross3 a b c * p.1 = cross3 b c p * a.1 + cross3 c a p * b.1 + cross3 a b p * c.1 := by simp [cross3]; ring
    have k2 : cross3 a b c * p.2 = cross3 b c p * a.2 + cross3 c a p * b.2 + cross3 a b p * c.2 := by simp [cross3]; ring
    refine Prod.ext ?_ ?_
    · simp only [Prod.fst_add, Prod.smul_fst, smul_eq_mul]
      refine mul_left_cancel₀ hne ?_
      rw [k1]; field_simp
    · simp only [Prod.snd_add, Prod.smul_snd, smul_eq_mul]
      refine mul_left_cancel₀ hne ?_
      rw [k2]; field_simp
  have hcv := convex_convexHull K s
  have hm := hcv.sum_mem (t := (Finset.univ : Finset (Fin 3)))
    (w := ![cross3 b c p / cross3 a b c, cross3 c a p / cross3 a b c, cross3 a b p / cross3 a b c]) (z := ![a, b, c])
    (by intro i _; fin_cases i <;> simp <;> exact div_nonneg ‹_› hD.le)
    (by rw [Fin.sum_univ_three]; simp; rw [← add_div, ← add_div, hs, div_self hD.ne'])
    (by intro i _; fin_cases i <;> simp <;> apply subset_convexHull <;> assumption)
  rw [Fin.sum_univ_three] at hm
  simp at hm
  rw [e]
  exact hm

theorem mem_ids {pts : List (K × K)} {ids : List Nat} (hs : Sorted pts ids) (q : K × K) :
    q ∈ pts ↔ ∃ i ∈ ids, pts.getD i (0, 0) = q := by
  constructor
  · intro hq
    obtain ⟨i, hi, e⟩ := List.mem_iff_getElem.1 hq
    exact ⟨i, (hs.1.mem_iff).2 (by simpa using hi), by simp [List.getD, hi, e]⟩
  · rintro ⟨i, hi, rfl⟩
    have : i < pts.length := by simpa using hs.1.mem_iff.1 hi
    simp [List.getD, this]

/-- a permutation that `std::sort` may produce -/
theorem sorted_exists (pts : List (K × K)) : ∃ ids, Sorted pts ids := by
  classical
  let r : Nat → Nat → Bool := fun i j => decide (¬ ptLess (pts.getD j (0, 0)) (pts.getD i (0, 0)))
  refine ⟨(List.range pts.length).mergeSort r, List.mergeSort_perm _ _, ?_⟩
  have := List.pairwise_mergeSort (le := r) ?_ ?_ (List.range pts.length)
  · exact this.imp fun h => by simpa [r] using h
  · intro a b c h1 h2
    simp only [r, decide_eq_true_eq] at h1 h2 ⊢
    have h3 := le_trans_ (le_of_not_ptLess h1) (le_of_not_ptLess h2)
    rintro (h | ⟨_, h⟩)
    · rcases h3 with h3 | h3 <;> simp at h3
      · exact absurd h (by simpa using h3.le)
      · exact absurd h (by simpa using (sub_eq_zero.1 h3.1).symm.le)
    · rcases h3 with h3 | h3 <;> simp at h3
      · rename_i h4; exact h4 (by simpa using h3)
      · exact absurd h (by simpa using h3.2)
  · intro a b
    simp only [r, Bool.or_eq_true, decide_eq_true_eq]
    by_contra hcon
    rw [not_or, not_not, not_not] at hcon
    obtain ⟨h1, h2⟩ := hcon
    rcases h1 with h1 | ⟨h1, h1'⟩ <;> rcases h2 with h2 | ⟨h2, h2'⟩
    · exact absurd h2 h1.le.not_gt
    · exact h2 h1
    · exact h1 h2
    · exact absurd h2' h1'.le.not_gt

/-- **C33**: for at least one point, the hull is a closed polygon, its vertices are input points, and every input point is on the left of
(or on) each of its edges -/
theorem C33_hull_partial {pts : List (K × K)} {ids : List Nat} (hs : Sorted pts ids) (hne : pts ≠ []) :
    ∃ H, build pts ids = .ok H ∧ H ≠ [] ∧ H.head? = H.getLast? ∧ (∀ i ∈ H, i < pts.length) ∧
      ∀ e ∈ H.zip H.tail, ∀ q ∈ pts, 0 ≤ cross3 (ptOf pts e.1) (ptOf pts e.2) q := by
  by_cases h2 : 2 ≤ pts.length
  · obtain ⟨v, h, U, L, e, hc⟩ := build_chains hs h2
    refine ⟨_, e, by simp, ?_, ?_, ?_⟩
    · rw [List.head?_reverse, List.getLast?_reverse]
      have : v :: (U ++ h :: (L ++ [v])) = (v :: (U ++ h :: L)) ++ [v] := by simp
      rw [this, List.getLast?_append]
      rfl
    · intro i hi
      have := hc.mem i (List.mem_reverse.1 hi)
      simpa using hs.1.mem_iff.1 this
    · rintro ⟨d, c⟩ he q hq
      obtain ⟨i, hi, rfl⟩ := (mem_ids hs q).1 hq
      exact hc.left ((mem_zip_tail _).1 he) i hi
  · match pts, hne, hs, h2 with
    | [p], _, hs, _ =>
      have e : ids = [0] := List.perm_singleton.1 (by simpa using hs.1)
      subst e
      refine ⟨[0], ?_, by simp, rfl, by simp, by simp⟩
      simp [build, addPoint, popLoop, Res.pure_def, Res.ok_bind]
    | p :: q :: t, _, _, h2 => simp at h2

/-- **C33**: unless the points are on a line, the polygon makes a strict left turn at each vertex, the first included, and has at least
three sides -/
theorem C33_turns {pts : List (K × K)} {ids : List Nat} (hs : Sorted pts ids) (hn : ¬ Collinear pts) {H : List Nat}
    (hH : build pts ids = .ok H) : 4 ≤ H.length ∧
    ∀ (i : Nat) (a b c : Nat), (H ++ H.tail.take 1)[i]? = some a → (H ++ H.tail.take 1)[i + 1]? = some b →
      (H ++ H.tail.take 1)[i + 2]? = some c → 0 < cross3 (ptOf pts a) (ptOf pts b) (ptOf pts c) := by
  have h2 : 2 ≤ pts.length := by
    by_contra hcon
    apply hn
    match pts, hcon with
    | [], _ => intro a ha; simp at ha
    | [p], _ =>
      intro a ha b hb c hc
      simp at ha hb hc
      subst ha; subst hb; subst hc
      simp [cross3]
    | p :: q :: t, h => simp at h
  obtain ⟨v, h, U, L, e, hc⟩ := build_chains hs h2
  rw [e] at hH
  have hH : (v :: (U ++ h :: (L ++ [v]))).reverse = H := by injection hH
  subst hH
  have hn' : ∃ a ∈ ids, ∃ b ∈ ids, ∃ c ∈ ids, cross3 (pts.getD a (0, 0)) (pts.getD b (0, 0)) (pts.getD c (0, 0)) ≠ 0 := by
    unfold Collinear at hn
    push_neg at hn
    obtain ⟨a, ha, b, hb, c, hc, hne⟩ := hn
    obtain ⟨i, hi, rfl⟩ := (mem_ids hs a).1 ha
    obtain ⟨j, hj, rfl⟩ := (mem_ids hs b).1 hb
    obtain ⟨k, hk, rfl⟩ := (mem_ids hs c).1 hc
    exact ⟨i, hi, j, hj, k, hk, hne⟩
  obtain ⟨c1, c2, c3⟩ := hc.proper hn'
  refine ⟨by simp at c3 ⊢; omega, ?_⟩
  intro i a b c ha hb hc'
  -- the vertex after the first
  obtain ⟨m, y, hm⟩ := List.eq_nil_or_concat (h :: L) |>.resolve_left (by simp)
  rw [List.concat_eq_append] at hm
  have hrev : (v :: (U ++ h :: (L ++ [v]))).reverse ++ (v :: (U ++ h :: (L ++ [v]))).reverse.tail.take 1 =
      (y :: v :: (U ++ h :: (L ++ [v]))).reverse := by
    have e1 : v :: (U ++ h :: (L ++ [v])) = v :: U ++ m ++ [y] ++ [v] := by
      rw [List.append_assoc (v :: U), ← hm]; simp
    have e2 : (v :: (U ++ h :: (L ++ [v]))).reverse.tail.take 1 = [y] := by
      rw [e1]; simp
    rw [e2, List.reverse_cons (a := y)]
  rw [hrev] at ha hb hc'
  have hlt : i + 2 < (y :: v :: (U ++ h :: (L ++ [v]))).length := by
    have := (List.getElem?_eq_some_iff.1 hc').1
    rwa [List.length_reverse] at this
  rw [List.getElem?_reverse (by omega)] at ha hb hc'
  have ht : Turn a b c (y :: v :: (U ++ h :: (L ++ [v]))) := by
    refine turn_of_getElem _ _ hc' ?_ ?_
    · rw [show (y :: v :: (U ++ h :: (L ++ [v]))).length - 1 - (i + 2) + 1 = (y :: v :: (U ++ h :: (L ++ [v]))).length - 1 - (i + 1) by omega]
      exact hb
    · rw [show (y :: v :: (U ++ h :: (L ++ [v]))).length - 1 - (i + 2) + 2 = (y :: v :: (U ++ h :: (L ++ [v]))).length - 1 - i by omega]
      exact ha
  have ht' : (c = y ∧ b = v ∧ (U ++ h :: (L ++ [v])).head? = some a) ∨ Turn a b c (v :: U ++ h :: (L ++ [v])) := by
    cases hU : U ++ h :: (L ++ [v]) with
    | nil => simp at hU
    | cons x t =>
      rw [hU] at ht
      rcases ht with ⟨q1, q2, q3⟩ | ht
      · exact .inl ⟨q1, q2, by rw [q3]; rfl⟩
      · exact .inr (by rw [List.cons_append, hU]; exact ht)
  rcases ht' with ⟨rfl, rfl, hx⟩ | ht
  · refine Chains.turn_v c1 c2 c3 ?_ (by rw [hm, ← List.append_assoc, List.getLast?_append]; rfl)
    cases U with
    | nil => simpa using hx
    | cons a U => simpa using hx
  · rcases Turn.split ht with ht | ht | ⟨q1, q2, q3⟩
    · have := Conv.turn (pt := fun i => -pts.getD i (0, 0)) c2 ht
      rwa [cross3_neg] at this
    · exact Conv.turn c1 ht
    · subst q2
      exact Chains.turn_h c1 c2 c3 q3 q1

theorem inHull_iff (h : List (K × K)) (p : K × K) : inHull h 1 p = true ↔ ∀ e ∈ h.zip h.tail, 0 ≤ cross3 e.1 e.2 p := by
  simp [inHull]

theorem zip_map_tail (f : Nat → K × K) (l : List Nat) : (l.map f).zip (l.map f).tail = (l.zip l.tail).map fun e => (f e.1, f e.2) := by
  rw [← List.map_tail, List.zip_map]
  rfl

/-- **C33**: unless the points are on a line, `in_convex_hull` accepts exactly the points of the convex hull in the mathematical sense -/
theorem C33_inside {pts : List (K × K)} {ids : List Nat} (hs : Sorted pts ids) (hn : ¬ Collinear pts) {H : List Nat}
    (hH : build pts ids = .ok H) (p : K × K) :
    inHull (H.map (ptOf pts)) 1 p = true ↔ p ∈ convexHull K {q | q ∈ pts} := by
  have hne : pts ≠ [] := by
    rintro rfl
    exact hn (fun a ha => by simp at ha)
  rw [inHull_iff, zip_map_tail]
  constructor
  · intro hin
    have h2 : 2 ≤ pts.length := by
      by_contra hcon
      apply hn
      match pts, hcon with
      | [], _ => intro a ha; simp at ha
      | [p], _ =>
        intro a ha b hb c hc
        simp at ha hb hc
        subst ha; subst hb; subst hc
        simp [cross3]
      | p :: q :: t, h => simp at h
    obtain ⟨v, h, U, L, e, hc⟩ := build_chains hs h2
    rw [e] at hH
    have hH : (v :: (U ++ h :: (L ++ [v]))).reverse = H := by injection hH
    subst hH
    have hn' : ∃ a ∈ ids, ∃ b ∈ ids, ∃ c ∈ ids, cross3 (pts.getD a (0, 0)) (pts.getD b (0, 0)) (pts.getD c (0, 0)) ≠ 0 := by
      unfold Collinear at hn
      push_neg at hn
      obtain ⟨a, ha, b, hb, c, hc, hne⟩ := hn
      obtain ⟨i, hi, rfl⟩ := (mem_ids hs a).1 ha
      obtain ⟨j, hj, rfl⟩ := (mem_ids hs b).1 hb
      obtain ⟨k, hk, rfl⟩ := (mem_ids hs c).1 hc
      exact ⟨i, hi, j, hj, k, hk, hne⟩
    obtain ⟨c1, c2, c3⟩ := hc.proper hn'
    have hedge : ∀ d c, Edge d c (v :: (U ++ h :: (L ++ [v]))) → 0 ≤ cross3 (ptOf pts d) (ptOf pts c) p := by
      intro d c he
      exact hin (ptOf pts d, ptOf pts c) (List.mem_map.2 ⟨(d, c), (mem_zip_tail _).2 he, rfl⟩)
    obtain ⟨b, m, a, hab⟩ := ends_of_two c3
    have hst : v :: (U ++ h :: (L ++ [v])) = v :: b :: (m ++ [a, v]) := by
      have : U ++ h :: (L ++ [v]) = (U ++ h :: L) ++ [v] := by simp
      rw [this, hab]; simp
    rw [hst] at hedge
    have hmid : ∀ d c, Edge d c (b :: (m ++ [a])) → Edge d c (v :: b :: (m ++ [a, v])) := by
      intro d c he
      right
      have key : ∀ (l : List Nat), Edge d c (l ++ [a]) → Edge d c (l ++ [a, v]) := by
        intro l
        induction l with
        | nil => intro h; exact h.elim
        | cons x l ih =>
          cases l with
          | nil => intro h; rcases h with h | h; exacts [.inl h, h.elim]
          | cons y l => intro h; rcases h with h | h; exacts [.inl h, .inr (ih h)]
      exact key (b :: m) he
    have hav : Edge v a (v :: b :: (m ++ [a, v])) := by
      have key : ∀ (l : List Nat), Edge v a (l ++ [a, v]) := by
        intro l
        induction l with
        | nil => exact .inl ⟨rfl, rfl⟩
        | cons x l ih =>
          cases l with
          | nil => exact .inr ih
          | cons y l => exact .inr ih
      exact key (v :: b :: m)
    have ha := hedge v a hav
    have hb := hedge b v (.inl ⟨rfl, rfl⟩)
    have hb' : cross3 (ptOf pts v) (ptOf pts b) p ≤ 0 := by
      have e : cross3 (ptOf pts v) (ptOf pts b) p = - cross3 (ptOf pts b) (ptOf pts v) p := by simp [cross3]; ring
      rw [e]; linarith
    obtain ⟨d, c, he, hd, hcc⟩ := fan_tri (pt := ptOf pts) (ptOf pts v) p m a b ha hb'
    have hmem : ∀ x ∈ v :: (U ++ h :: (L ++ [v])), ptOf pts x ∈ {q | q ∈ pts} := fun x hx => (mem_ids hs _).2 ⟨x, hc.mem x hx, rfl⟩
    have hdc := edge_mem (hmid d c he)
    rw [← hst] at hdc
    refine tri_mem (hmem v (by simp)) (hmem d hdc.1) (hmem c hdc.2) (Chains.fan c1 c2 (by rw [hab]; exact he)) hd (hedge d c (hmid d c he)) ?_
    have e : cross3 (ptOf pts c) (ptOf pts v) p = - cross3 (ptOf pts v) (ptOf pts c) p := by simp [cross3]; ring
    rw [e]; linarith
  · intro hp
    obtain ⟨H', e', -, -, -, hleft⟩ := C33_hull_partial hs hne
    rw [hH] at e'
    have e' : H = H' := by injection e'
    subst e'
    have hconv : Convex K {q : K × K | ∀ e ∈ (H.zip H.tail).map fun e => (ptOf pts e.1, ptOf pts e.2), 0 ≤ cross3 e.1 e.2 q} := by
      intro x hx y hy s t hs' ht hst e he
      have h1 := hx e he
      have h2 := hy e he
      have ee : cross3 e.1 e.2 (s • x + t • y) = s * cross3 e.1 e.2 x + t * cross3 e.1 e.2 y := by
        have : t = 1 - s := by linarith
        subst this
        simp [cross3]; ring
      rw [ee]
      exact add_nonneg (mul_nonneg hs' h1) (mul_nonneg ht h2)
    refine convexHull_min ?_ hconv hp
    intro q hq e he
    obtain ⟨⟨d, c⟩, hdc, rfl⟩ := List.mem_map.1 he
    exact hleft (d, c) hdc q hq

/-- three corners of a square, its centre and the last corner, twice: the hull is the square -/
example : build ([(0, 0), (2, 0), (1, 1), (0, 2), (2, 2), (2, 2)] : List (ℚ × ℚ)) [0, 3, 2, 1, 4, 5] = .ok [0, 1, 5, 3, 0] ∧
    Sorted ([(0, 0), (2, 0), (1, 1), (0, 2), (2, 2), (2, 2)] : List (ℚ × ℚ)) [0, 3, 2, 1, 4, 5] ∧
    ¬ Collinear ([(0, 0), (2, 0), (1, 1), (0, 2), (2, 2), (2, 2)] : List (ℚ × ℚ)) := by
  unfold Sorted Collinear ptLess
  decide +kernel

/-- **C33** refuted for an empty set: the second loop starts at index 2^64-2 -/
theorem C33_empty_refuted : build ([] : List (K × K)) [] = .ub := rfl

/-- **C33** refuted for one point: the hull of one point accepts every point -/
theorem C33_single_refuted (p q : K × K) : build [p] [0] = .ok [0] ∧ inHull ([0].map (ptOf [p])) 1 q = true := by
  refine ⟨?_, rfl⟩
  simp [build, addPoint, popLoop, Res.pure_def, Res.ok_bind]

/-- **C33** refuted for points on a line: the hull of a segment accepts points beyond its ends -/
theorem C33_line_refuted : ∃ H, build ([(0, 0), (1, 0)] : List (ℚ × ℚ)) [0, 1] = .ok H ∧ Sorted ([(0, 0), (1, 0)] : List (ℚ × ℚ)) [0, 1] ∧
    inHull (H.map (ptOf ([(0, 0), (1, 0)] : List (ℚ × ℚ)))) 1 (5, 0) = true ∧ ((5, 0) : ℚ × ℚ) ∉ convexHull ℚ {q | q ∈ ([(0, 0), (1, 0)] : List (ℚ × ℚ))} := by
  refine ⟨[0, 1, 0], by decide +kernel, by unfold Sorted ptLess; decide +kernel, by decide +kernel, fun hmem => ?_⟩
  have hconv : Convex ℚ {q : ℚ × ℚ | q.1 ≤ 1} := by
    intro x hx y hy s t hs ht hst
    simp only [Set.mem_setOf_eq, Prod.fst_add, Prod.smul_fst, smul_eq_mul] at hx hy ⊢
    have := mul_le_mul_of_nonneg_left hx hs
    have := mul_le_mul_of_nonneg_left hy ht
    linarith
  have := convexHull_min (t := {q : ℚ × ℚ | q.1 ≤ 1}) (fun q hq => by
    simp at hq
    rcases hq with rfl | rfl <;> simp) hconv hmem
  simp at this

theorem inHullVec_fold (orient : K) (ps : List (K × K)) : ∀ (es : List ((K × K) × (K × K))) (res : List Bool), res.length = ps.length →
    es.foldl (inHullEdge orient ps) res = List.zipWith (fun p r => r && es.all fun e => !decide (cross3 e.1 e.2 p * orient < 0)) ps res
  | [], res, h => by
    refine List.ext_getElem (by simp [h]) fun i h1 h2 => by simp
  | e :: es, res, h => by
    rw [List.foldl_cons, inHullVec_fold orient ps es _ (by simp [inHullEdge, h])]
    refine List.ext_getElem (by simp [inHullEdge, h]) fun i h1 h2 => ?_
    simp only [List.getElem_zipWith, inHullEdge, List.all_cons]
    cases res[i]'(by simp at h2; omega) <;> by_cases hx : cross3 e.1 e.2 (ps[i]'(by simp at h2; omega)) * orient < 0 <;> simp [hx]

/-- **C33**: the vector form gives the answer of the scalar form at each point -/
theorem C33_vector (hull : List (K × K)) (orient : K) (ps : List (K × K)) : inHullVec hull orient ps = ps.map (inHull hull orient) := by
  unfold inHullVec
  rw [inHullVec_fold _ _ _ _ (by simp)]
  refine List.ext_getElem (by simp) fun i h1 h2 => ?_
  simp [inHull]

/-! ### C94: hulls given by the user -/

/-- a closed polygon all of whose vertices are on the side of all edges given by the sign `o` -/
def ConvexPoly (o : K) (h : List (K × K)) : Prop :=
  h.head? = h.getLast? ∧ ∀ e ∈ h.zip h.tail, ∀ w ∈ h, 0 ≤ cross3 e.1 e.2 w * o

theorem validate_orient (a b c : K × K) : (b.1 - a.1) * (c.2 - b.2) - (b.2 - a.2) * (c.1 - b.1) = cross3 a b c := by
  simp [cross3]; ring

theorem getLastD_closed {a b c : K × K} {t : List (K × K)} (h : (a :: b :: c :: t).head? = (a :: b :: c :: t).getLast?) :
    (c :: t).getLastD c = a := by
  rw [List.getLast?_cons_cons, List.getLast?_cons_cons] at h
  rw [List.getLastD_eq_getLast?, ← h]; rfl

/-- **C94**: a counter-clockwise convex polygon whose first three vertices are not on a line is recognised as closed and
counter-clockwise, and the points accepted are those on the left of all its edges -/
theorem C94_ccw_partial {eps : K} (he : 0 < eps) {a b c : K × K} {t : List (K × K)} (hc : ConvexPoly 1 (a :: b :: c :: t))
    (h3 : cross3 a b c ≠ 0) :
    validate eps (a :: b :: c :: t) = .ok (true, 1) ∧ ∀ p, inHull (a :: b :: c :: t) 1 p = true ↔
      ∀ e ∈ (a :: b :: c :: t).zip (b :: c :: t), 0 ≤ cross3 e.1 e.2 p := by
  refine ⟨?_, fun p => inHull_iff _ p⟩
  have h0 := hc.2 (a, b) (by simp) c (by simp)
  rw [mul_one] at h0
  have hpos : 0 < cross3 a b c := lt_of_le_of_ne h0 (Ne.symm h3)
  unfold validate
  simp only [getLastD_closed hc.1, validate_orient]
  rw [if_pos hpos]
  simp [he]

/-- **C94**: a clockwise convex polygon is always recognised, and the points accepted are those on the right of all its edges -/
theorem C94_cw {eps : K} (he : 0 < eps) {a b c : K × K} {t : List (K × K)} (hc : ConvexPoly (-1) (a :: b :: c :: t)) :
    validate eps (a :: b :: c :: t) = .ok (true, -1) ∧ ∀ p, inHull (a :: b :: c :: t) (-1) p = true ↔
      ∀ e ∈ (a :: b :: c :: t).zip (b :: c :: t), cross3 e.1 e.2 p ≤ 0 := by
  refine ⟨?_, fun p => by simp [inHull]⟩
  have h0 := hc.2 (a, b) (by simp) c (by simp)
  have hneg : ¬ 0 < cross3 a b c := by intro h; simp only [mul_neg, mul_one] at h0; linarith
  unfold validate
  simp only [getLastD_closed hc.1, validate_orient]
  rw [if_neg hneg]
  simp [he]

/-- the order of the vertices does not matter -/
theorem C94_reverse (h : List (K × K)) (p : K × K) : inHull h.reverse (-1) p = inHull h 1 p := by
  have key : (inHull h.reverse (-1) p = true) ↔ (inHull h 1 p = true) := by
    have hr : ∀ d c, (d, c) ∈ h.zip h.tail ↔ (c, d) ∈ h.reverse.zip h.reverse.tail := by
      intro d c
      have h1 := mem_zip_tail (d := c) (c := d) h
      rw [h1]
      have : ∀ l : List (K × K), (d, c) ∈ l.zip l.tail ↔ Edge c d l := by
        intro l
        induction l with
        | nil => simp [Edge]
        | cons x l ih =>
          cases l with
          | nil => simp [Edge]
          | cons y l =>
            rw [List.tail_cons, List.zip_cons_cons, List.mem_cons, Edge, ← ih]
            simp only [Prod.mk.injEq, List.tail_cons]
            tauto
      exact this h
    rw [inHull_iff]
    simp only [inHull, List.all_eq_true, Bool.not_eq_true', decide_eq_false_iff_not, not_lt, mul_neg, mul_one]
    constructor
    · rintro hall ⟨d, c⟩ he
      have := hall (c, d) ((hr d c).1 he)
      have e : cross3 d c p = - cross3 c d p := by simp [cross3]; ring
      rw [e]; exact this
    · rintro hall ⟨d, c⟩ he
      have := hall (c, d) ((hr c d).2 he)
      have e : cross3 c d p = - cross3 d c p := by simp [cross3]; ring
      rwa [← e]
  exact Bool.eq_iff_iff.2 key

/-- a square -/
example : ConvexPoly 1 ([(0, 0), (2, 0), (2, 2), (0, 2), (0, 0)] : List (ℚ × ℚ)) ∧
    inHull ([(0, 0), (2, 0), (2, 2), (0, 2), (0, 0)] : List (ℚ × ℚ)) 1 (1, 1) = true ∧
    ConvexPoly (-1) ([(0, 0), (0, 2), (2, 2), (2, 0), (0, 0)] : List (ℚ × ℚ)) := by
  unfold ConvexPoly
  decide +kernel

/-- **C94**: a polygon whose last vertex differs from the first, by the epsilon or more in either coordinate, is reported as open -/
theorem C94_open {eps : K} {h : List (K × K)} (h0 : h ≠ []) {r : Bool × K} (hr : validate eps h = .ok r)
    (hd : eps ≤ |(h.head h0).1 - (h.getLast h0).1| ∨ eps ≤ |(h.head h0).2 - (h.getLast h0).2|) : r.1 = false := by
  match h, h0 with
  | a :: b :: c :: t, _ =>
    have hz : (a :: b :: c :: t).getLast (by simp) = (c :: t).getLastD c := by
      rw [List.getLastD_eq_getLast?, List.getLast?_eq_some_getLast (by simp)]; simp
    unfold validate at hr
    injection hr with hr
    rw [← hr, decide_eq_false_iff_not]
    rw [hz] at hd
    rintro ⟨h1, h2⟩
    rcases hd with hd | hd
    · exact absurd h1 (not_lt.2 hd)
    · exact absurd h2 (not_lt.2 hd)
  | [], h0 => exact absurd rfl h0
  | [a], _ => cases hr
  | [a, b], _ => cases hr

/-- the last side of a square is missing: the end is above the start -/
example : validate (1 / 1000) ([(0, 0), (2, 0), (2, 2), (0, 2)] : List (ℚ × ℚ)) = .ok (false, 1) ∧
    (1 / 1000 : ℚ) ≤ |0 - 2| := by
  decide +kernel

/-- **C94** refuted when the first three vertices of a counter-clockwise polygon are on a line: it is taken for clockwise, and its centre is
refused -/
theorem C94_collinear_refuted : ConvexPoly 1 ([(0, 0), (1, 0), (2, 0), (2, 2), (0, 2), (0, 0)] : List (ℚ × ℚ)) ∧
    validate (1 / 1000) ([(0, 0), (1, 0), (2, 0), (2, 2), (0, 2), (0, 0)] : List (ℚ × ℚ)) = .ok (true, -1) ∧
    inHull ([(0, 0), (1, 0), (2, 0), (2, 2), (0, 2), (0, 0)] : List (ℚ × ℚ)) (-1) (1, 1) = false := by
  unfold ConvexPoly
  decide +kernel

/-- **C94** refuted for integer coordinates, whose epsilon is zero: no hull is closed -/
theorem C94_integer_refuted (h : List (K × K)) : ∀ r, validate 0 h = .ok r → r.1 = false := by
  intro r hr
  unfold validate at hr
  split at hr
  · injection hr with hr
    rw [← hr]
    simp
  · cases hr

end Verif.Hull
