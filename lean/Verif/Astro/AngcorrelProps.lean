import Verif.Astro.Angcorrel
import Verif.Math.HistProps
import Mathlib.Tactic.Ring
import Mathlib.Data.Rat.Floor
/-!
# C150: the angular correlation function
-/
namespace Verif.Angcorrel
open Verif Verif.Core Verif.Math
variable {K : Type} [Field K] [LinearOrder K]

/-- Spec: the number of pairs of an object of `A` and an object of `B` whose distance is in the bin. -/
def pairs (dist : K × K → K × K → K) (A B : List (K × K)) (b : Bin K) : Nat := (B.map fun p => A.countP fun q => inside b (some (dist q p))).sum

/-- Spec: the same, for the pairs of objects of a list that are at different places in the list. -/
def distinctPairs (dist : K × K → K × K → K) (A : List (K × K)) (b : Bin K) : Nat :=
  ((List.range A.length).map fun i => (List.range A.length).countP fun j => decide (j ≠ i) && ((A[i]?.bind fun p => A[j]?.map fun q => inside b (some (dist q p))).getD false)).sum

/-- Spec: the estimator of Landy and Szalay, from the numbers of pairs of `n` objects and `m` random positions: each number is divided by the number of all the pairs. -/
def landySzalay (n m dd dr rr : K) : K := (dd / (n * (n - 1)) - 2 * (dr / (n * m)) + rr / (m * (m - 1))) / (rr / (m * (m - 1)))

theorem addHist_ok {part : Part (Option K)} (hp : PartOk part) (dist : K × K → K × K → K) (bins : Vec (Option K)) (bs : List (Bin K)) (hb : IsBins bins bs) (hd : Disjoint bs)
    (cat : List (K × K)) (p : K × K) (f : Bin K → Nat) :
    addHist part dist bins cat p (bs.map f) = .ok (bs.map fun b => f b + cat.countP fun q => inside b (some (dist q p))) := by
  unfold addHist
  rw [C27_histogram hp _ bins bs hb hd, Res.ok_bind, Res.check_pos (by simp), Res.ok_bind]
  congr 1
  rw [List.zipWith_map]
  have : ∀ b, countIn (cat.map fun q => some (dist q p)) b = cat.countP fun q => inside b (some (dist q p)) := by
    intro b; unfold countIn; rw [List.countP_map]; rfl
  simp only [this]
  induction bs with
  | nil => rfl
  | cons b bs ih => simp

theorem loopData_ok {part : Part (Option K)} (hp : PartOk part) (dist : K × K → K × K → K) (bins : Vec (Option K)) (bs : List (Bin K)) (hb : IsBins bins bs) (hd : Disjoint bs)
    (cat rnd : List (K × K)) : ∀ (l : List (K × K)) (f g : Bin K → Nat),
    loopData part dist bins cat rnd l (bs.map f) (bs.map g) = .ok (bs.map fun b => f b + pairs dist cat l b, bs.map fun b => g b + pairs dist rnd l b) := by
  intro l
  induction l with
  | nil => intro f g; simp [loopData, pairs]
  | cons p l ih =>
    intro f g
    rw [loopData, addHist_ok hp dist bins bs hb hd, Res.ok_bind, addHist_ok hp dist bins bs hb hd, Res.ok_bind, ih]
    simp only [pairs, List.map_cons, List.sum_cons, Nat.add_assoc]

theorem loopRandom_ok {part : Part (Option K)} (hp : PartOk part) (dist : K × K → K × K → K) (bins : Vec (Option K)) (bs : List (Bin K)) (hb : IsBins bins bs) (hd : Disjoint bs)
    (rnd : List (K × K)) : ∀ (l : List (K × K)) (f : Bin K → Nat),
    loopRandom part dist bins rnd l (bs.map f) = .ok (bs.map fun b => f b + pairs dist rnd l b) := by
  intro l
  induction l with
  | nil => intro f; simp [loopRandom, pairs]
  | cons p l ih =>
    intro f
    rw [loopRandom, addHist_ok hp dist bins bs hb hd, Res.ok_bind, ih]
    simp only [pairs, List.map_cons, List.sum_cons, Nat.add_assoc]

/-- The result has one value per bin, which depends on the numbers of pairs in that bin only; these count each pair of two objects twice, and the pairs of an object with itself.
There is no finite value for a bin without random pairs, or with less than two objects. -/
theorem C150_counts {part : Part (Option K)} (hp : PartOk part) (dist : K × K → K × K → K) (ra dec rra rdec : List K) (h1 : ra.length = dec.length) (h2 : rra.length = rdec.length)
    (bins : Vec (Option K)) (bs : List (Bin K)) (hb : IsBins bins bs) (hd : Disjoint bs) :
    angcorrel part dist ra dec rra rdec bins = .ok (bs.map fun b =>
      estimate ra.length rra.length (pairs dist (ra.zip dec) (ra.zip dec) b) (pairs dist (rra.zip rdec) (ra.zip dec) b) (pairs dist (rra.zip rdec) (rra.zip rdec) b)) := by
  unfold angcorrel
  have hz : List.replicate (bins.dims.getD 1 0) 0 = bs.map fun _ => 0 := by rw [hb.1]; simp
  rw [Res.check_pos h1, Res.ok_bind, Res.check_pos h2, Res.ok_bind]
  dsimp only
  rw [hz, loopData_ok hp dist bins bs hb hd, Res.ok_bind, loopRandom_ok hp dist bins bs hb hd, Res.ok_bind]
  simp only [Nat.zero_add]
  congr 1
  clear hz hb hd
  induction bs with
  | nil => rfl
  | cons b bs ih => simp only [List.map_cons, List.zip_cons_cons]; rw [ih]

/-- The lists of coordinates must have the same sizes. -/
theorem C150_sizes (part : Part (Option K)) (dist : K × K → K × K → K) (ra dec rra rdec : List K) (bins : Vec (Option K)) (h : ra.length ≠ dec.length ∨ rra.length ≠ rdec.length) :
    angcorrel part dist ra dec rra rdec bins = .abort := by
  unfold angcorrel
  by_cases h1 : ra.length = dec.length
  · rw [Res.check_pos h1, Res.ok_bind, Res.check_neg (by tauto)]; rfl
  · rw [Res.check_neg h1]; rfl

/-- Spec and result: the value is the estimator with a term less. -/
theorem estimate_eq [IsStrictOrderedRing K] (n m dd dr rr : Nat) (hn : 2 ≤ n) (hm : 2 ≤ m) (hr : rr ≠ 0) :
    (estimate n m dd dr rr : Option K) = some (landySzalay (n : K) m dd dr rr - 2 * dr / (n * rr)) := by
  unfold estimate
  rw [if_neg (by omega)]
  have h1 : (n : K) ≠ 0 := by exact_mod_cast (show n ≠ 0 by omega)
  have h2 : (m : K) ≠ 0 := by exact_mod_cast (show m ≠ 0 by omega)
  have h3 : (rr : K) ≠ 0 := by exact_mod_cast hr
  have h4 : (n : K) - 1 ≠ 0 := by
    intro h; have : (n : K) = 1 := by linarith
    have : n = 1 := by exact_mod_cast this
    omega
  have h5 : (m : K) - 1 ≠ 0 := by
    intro h; have : (m : K) = 1 := by linarith
    have : m = 1 := by exact_mod_cast this
    omega
  dsimp only
  rw [Option.some.injEq]
  unfold landySzalay
  field_simp
  ring

/-- The value of each bin, with at least two objects and two random positions, is the estimator of the counts, minus a term that is proportional to the number of pairs of an object and a random position. -/
theorem C150_estimator_partial [IsStrictOrderedRing K] {part : Part (Option K)} (hp : PartOk part) (dist : K × K → K × K → K) (ra dec rra rdec : List K) (h1 : ra.length = dec.length) (h2 : rra.length = rdec.length)
    (bins : Vec (Option K)) (bs : List (Bin K)) (hb : IsBins bins bs) (hd : Disjoint bs) (hn : 2 ≤ ra.length) (hm : 2 ≤ rra.length) :
    ∃ r, angcorrel part dist ra dec rra rdec bins = .ok r ∧ r.length = bs.length ∧ ∀ (i : Nat) (b : Bin K), bs[i]? = some b →
      let dd := pairs dist (ra.zip dec) (ra.zip dec) b
      let dr := pairs dist (rra.zip rdec) (ra.zip dec) b
      let rr := pairs dist (rra.zip rdec) (rra.zip rdec) b
      r[i]? = some (if rr = 0 then none else some (landySzalay (ra.length : K) rra.length dd dr rr - 2 * dr / (ra.length * rr))) := by
  refine ⟨_, C150_counts hp dist ra dec rra rdec h1 h2 bins bs hb hd, by simp, fun i b hi => ?_⟩
  rw [List.getElem?_map, hi, Option.map_some]
  dsimp only
  split
  · rename_i h0; rw [estimate, if_pos (Or.inl h0)]
  · rename_i h0; rw [estimate_eq _ _ _ _ _ hn hm h0]

/-- It is therefore never the estimator of Landy and Szalay when there is such a pair in the bin. -/
theorem C150_estimator_refuted [IsStrictOrderedRing K] {part : Part (Option K)} (hp : PartOk part) (dist : K × K → K × K → K) (ra dec rra rdec : List K) (h1 : ra.length = dec.length) (h2 : rra.length = rdec.length)
    (bins : Vec (Option K)) (bs : List (Bin K)) (hb : IsBins bins bs) (hd : Disjoint bs) (hn : 2 ≤ ra.length) (hm : 2 ≤ rra.length) (i : Nat) (b : Bin K) (hi : bs[i]? = some b)
    (hdr : pairs dist (rra.zip rdec) (ra.zip dec) b ≠ 0) (hrr : pairs dist (rra.zip rdec) (rra.zip rdec) b ≠ 0) :
    ∃ r v, angcorrel part dist ra dec rra rdec bins = .ok r ∧ r[i]? = some (some v) ∧
      v < landySzalay (ra.length : K) rra.length (pairs dist (ra.zip dec) (ra.zip dec) b) (pairs dist (rra.zip rdec) (ra.zip dec) b) (pairs dist (rra.zip rdec) (rra.zip rdec) b) := by
  obtain ⟨r, e1, -, e2⟩ := C150_estimator_partial hp dist ra dec rra rdec h1 h2 bins bs hb hd hn hm
  have := e2 i b hi
  dsimp only at this
  rw [if_neg hrr] at this
  refine ⟨r, _, e1, this, ?_⟩
  have a1 : (0 : K) < ra.length := by exact_mod_cast (show 0 < ra.length by omega)
  have a2 : (0 : K) < (pairs dist (rra.zip rdec) (rra.zip rdec) b : K) := by exact_mod_cast Nat.pos_of_ne_zero hrr
  have a3 : (0 : K) < (pairs dist (rra.zip rdec) (ra.zip dec) b : K) := by exact_mod_cast Nat.pos_of_ne_zero hdr
  have : (0 : K) < 2 * (pairs dist (rra.zip rdec) (ra.zip dec) b : K) / (ra.length * (pairs dist (rra.zip rdec) (rra.zip rdec) b : K)) := by positivity
  linarith

theorem pairs_perm (dist : K × K → K × K → K) {A A' B B' : List (K × K)} (hA : A.Perm A') (hB : B.Perm B') (b : Bin K) : pairs dist A B b = pairs dist A' B' b := by
  unfold pairs
  simp only [fun p => hA.countP_eq fun q => inside b (some (dist q p))]
  exact (hB.map _).sum_eq

/-- The order of the objects, and that of the random positions, does not matter. -/
theorem C150_order {part : Part (Option K)} (hp : PartOk part) (dist : K × K → K × K → K) (ra dec rra rdec ra' dec' rra' rdec' : List K) (h1 : ra.length = dec.length) (h2 : rra.length = rdec.length)
    (h1' : ra'.length = dec'.length) (h2' : rra'.length = rdec'.length) (p1 : (ra.zip dec).Perm (ra'.zip dec')) (p2 : (rra.zip rdec).Perm (rra'.zip rdec'))
    (bins : Vec (Option K)) (bs : List (Bin K)) (hb : IsBins bins bs) (hd : Disjoint bs) :
    angcorrel part dist ra dec rra rdec bins = angcorrel part dist ra' dec' rra' rdec' bins := by
  have l1 : ra.length = ra'.length := by have := p1.length_eq; simp only [List.length_zip] at this; omega
  have l2 : rra.length = rra'.length := by have := p2.length_eq; simp only [List.length_zip] at this; omega
  rw [C150_counts hp dist ra dec rra rdec h1 h2 bins bs hb hd, C150_counts hp dist ra' dec' rra' rdec' h1' h2' bins bs hb hd]
  simp only [l1, l2, pairs_perm dist p1 p1, pairs_perm dist p2 p1, pairs_perm dist p2 p2]

/-- Random positions that are those of the objects give no correlation. -/
theorem C150_same [IsStrictOrderedRing K] {part : Part (Option K)} (hp : PartOk part) (dist : K × K → K × K → K) (ra dec : List K) (h1 : ra.length = dec.length) (hn : 2 ≤ ra.length)
    (bins : Vec (Option K)) (bs : List (Bin K)) (hb : IsBins bins bs) (hd : Disjoint bs) :
    angcorrel part dist ra dec ra dec bins = .ok (bs.map fun b => if pairs dist (ra.zip dec) (ra.zip dec) b = 0 then none else some 0) := by
  rw [C150_counts hp dist ra dec ra dec h1 h1 bins bs hb hd]
  congr 1
  refine List.map_congr_left fun b _ => ?_
  unfold estimate
  split
  · rename_i h; rw [if_pos (by omega)]
  · rename_i h
    rw [if_neg (by omega)]
    have e1 : (ra.length : K) ≠ 0 := by exact_mod_cast (show ra.length ≠ 0 by omega)
    have e4 : (ra.length : K) - 1 ≠ 0 := by
      intro h; have : (ra.length : K) = 1 := by linarith
      have : ra.length = 1 := by exact_mod_cast this
      omega
    simp [div_self e1, div_self e4]

/-- Objects are paired with themselves: if the bin contains the distance zero there are at least as many pairs as objects, even if no two objects are close to each other. -/
theorem C150_self_refuted (dist : K × K → K × K → K) (h0 : ∀ p, dist p p = 0) (A : List (K × K)) (b : Bin K) (hb : inside b (some 0) = true) : A.length ≤ pairs dist A A b := by
  unfold pairs
  have : ∀ B : List (K × K), (∀ p ∈ B, p ∈ A) → B.length ≤ (B.map fun p => A.countP fun q => inside b (some (dist q p))).sum := by
    intro B
    induction B with
    | nil => simp
    | cons p B ih =>
      intro h
      have h1 := ih fun q hq => h q (by simp [hq])
      have h2 : 0 < A.countP fun q => inside b (some (dist q p)) := List.countP_pos_iff.2 ⟨p, h p (by simp), by rw [h0]; exact hb⟩
      simp only [List.length_cons, List.map_cons, List.sum_cons]
      omega
  exact this A fun _ h => h

/-- two objects that are far from each other, three random positions; distances along one coordinate, the bins are `[0,2)` and `[2,20)` -/
def exDist (p q : ℚ × ℚ) : ℚ := if p.1 ≤ q.1 then q.1 - p.1 else p.1 - q.1

def exPart : Part (Option ℚ) := fun p l => (l.filter p, l.filter fun x => !p x)

theorem exPart_ok : PartOk exPart := ⟨fun _ _ => .refl _, fun _ _ => .refl _⟩

/-- the two objects are at a distance of 10, and yet there are two pairs of objects below 2 -/
example : pairs exDist [(0, 0), (10, 0)] [(0, 0), (10, 0)] (some 0, some 2) = 2 ∧ distinctPairs exDist [(0, 0), (10, 0)] (some 0, some 2) = 0 := by decide +kernel

example : angcorrel exPart exDist [0, 10] [0, 0] [0, 5, 9] [0, 0, 0] ⟨[some 0, some 2, some 2, some 20], [2, 2]⟩ = .ok [some 1, some 0] := by decide +kernel

/-- the estimator for the second bin is not zero -/
example : landySzalay 2 3 2 (pairs exDist [(0, 0), (5, 0), (9, 0)] [(0, 0), (10, 0)] (some 2, some 20) : ℚ) (pairs exDist [(0, 0), (5, 0), (9, 0)] [(0, 0), (5, 0), (9, 0)] (some 2, some 20) : ℚ) = 2 / 3 := by decide +kernel

end Verif.Angcorrel
