import Verif.Astro.QxBucketProps
import Mathlib.Analysis.Real.Sqrt
import Mathlib.Tactic.IntervalCases
/-!
# C57: where the bucket search and brute force differ
-/
namespace Verif.Qx
open Verif

variable {K : Type} [LinearOrder K] [Field K] [IsStrictOrderedRing K] [FloorRing K]

/-- what was visited at a depth passed the test of `grow` -/
theorem visited_bound {nx ny : Nat} {cs : K} (hcs : 0 < cs) {x y : Nat} : ∀ {m}, (x, y) ∈ (depth nx ny cs m).1 → (x, y) ≠ (0, 0) →
    cs * cs * corner2 x y ≤ cs * cs * (((m : K) + 3/2) * ((m : K) + 3/2))
  | 0, h, h0 => by simp [depth] at h; exact absurd (Prod.ext h.1 h.2) h0
  | m + 1, h, h0 => by
    have hm : (0 : K) ≤ m := Nat.cast_nonneg m
    have hc := mul_pos hcs hcs
    unfold depth at h
    simp only [List.mem_append] at h
    rcases h with h | h
    · refine (visited_bound hcs h h0).trans (mul_le_mul_of_nonneg_left ?_ hc.le)
      push_cast
      exact mul_self_le_mul_self (by linarith) (by linarith)
    · have := (mem_newCells.1 h).2.2.1
      simp only [Nat.add_sub_cancel, show m + 2 - 1 = m + 1 from rfl, maxDist] at this
      refine this.trans (le_of_eq ?_)
      push_cast; ring

theorem listed_visited {nx ny : Nat} {cs : K} {b : Int × Int} : ∀ {m : Nat}, b ∈ (depth nx ny cs m).2 →
    (b.1.natAbs, b.2.natAbs) ∈ (depth nx ny cs m).1
  | 0, h => by simp [depth] at h ⊢; subst h; simp
  | m + 1, h => by
    unfold depth at h ⊢
    simp only [quadrants, List.mem_append, List.mem_map] at h ⊢
    right
    rcases h with ((⟨p, hp, rfl⟩ | ⟨p, hp, rfl⟩) | ⟨p, hp, rfl⟩) | ⟨p, hp, rfl⟩ <;> simpa using hp

/-- **C57**, what fails (1): the buckets of the far diagonal are never visited. When all the sources of the second catalogue are in such
buckets no neighbour is reported, although brute force always finds one. -/
theorem bucket_far_no_match {sq : K → K} {f : Field2 K} (hcs : 0 < f.cs) (hN : 1 ≤ max f.nra f.ndec) (self : Bool)
    {nth m : Nat} (hn : 1 ≤ nth) (hm : nth ≤ m) (i : Nat) (p : K × K)
    (hfar : ∀ q ∈ f.c2, (f.cell q ≠ f.cell p) ∧ (((max f.nra f.ndec : Nat) : K) + 1/2) * (((max f.nra f.ndec : Nat) : K) + 1/2) <
      corner2 ((f.cell q).1 - ((f.cell p).1 : Int)).natAbs ((f.cell q).2 - ((f.cell p).2 : Int)).natAbs) :
    search1 sq f self nth i p (max f.nra f.ndec) 0 (List.replicate m noMatch) = .ok (List.replicate m noMatch) := by
  obtain ⟨n', c, l, h1, h2, h3, -, -⟩ := search1_spec sq f self hn hm i p (max f.nra f.ndec) 0 _ (by omega) hN rfl
  have hnil : seen f f.c2 (f.cell p) (allowed self i) (n' + 1) = [] := by
    rw [List.eq_nil_iff_forall_not_mem]
    intro j hj
    obtain ⟨-, k, hk, hf⟩ := mem_seen.1 hj
    obtain ⟨b, hb, q, hq, -, -, -, -, e1, e2⟩ := mem_found.1 hf
    obtain ⟨hne, hbig⟩ := hfar q (List.mem_of_getElem? hq)
    have hx : ((f.cell q).1 - ((f.cell p).1 : Int)).natAbs = b.1.natAbs := by omega
    have hy : ((f.cell q).2 - ((f.cell p).2 : Int)).natAbs = b.2.natAbs := by omega
    rw [hx, hy] at hbig
    have hv := visited_bound hcs (listed_visited hb) (by
      rintro h0
      rw [Prod.mk.injEq, Int.natAbs_eq_zero, Int.natAbs_eq_zero] at h0
      exact hne (Prod.ext (by omega) (by omega)))
    have := le_of_mul_le_mul_left hv (mul_pos hcs hcs)
    have hkK : (k : K) + 1 ≤ ((max f.nra f.ndec : Nat) : K) := by exact_mod_cast (by omega : k + 1 ≤ max f.nra f.ndec)
    have hk0 : (0 : K) ≤ k := Nat.cast_nonneg k
    have h5 := mul_self_le_mul_self (show (0 : K) ≤ k + 3/2 by linarith) (show (k : K) + 3/2 ≤ ((max f.nra f.ndec : Nat) : K) + 1/2 by linarith)
    linarith
  rw [hnil] at h3
  rw [h1]
  exact h3.symm

/-- two sources at the corners of a unit square, one source twenty units away along the diagonal -/
theorem C57_far_diagonal_refuted : ∃ c1 c2 : List (ℝ × ℝ), c1.length = 1 ∧ c2.length = 2 ∧
    (bucketMatch Real.sqrt false false 1 c1 c2).map XRes.fwd = .ok [[(⊤, none)]] := by
  refine ⟨[(20, 20)], [(0, 0), (1, 1)], rfl, rfl, ?_⟩
  have hf : makeField Real.sqrt [((20 : ℝ), (20 : ℝ))] [(0, 0), (1, 1)] = .ok ⟨22, 22, 1, -1, -1, [(20, 20)], [(0, 0), (1, 1)]⟩ := by
    have e1 : lmax (List.map Prod.fst [((0 : ℝ), (0 : ℝ)), (1, 1)]) = 1 := by simp [lmax]
    have e2 : lmin (List.map Prod.fst [((0 : ℝ), (0 : ℝ)), (1, 1)]) = 0 := by simp [lmin]
    have e3 : lmax (List.map Prod.snd [((0 : ℝ), (0 : ℝ)), (1, 1)]) = 1 := by simp [lmax]
    have e4 : lmin (List.map Prod.snd [((0 : ℝ), (0 : ℝ)), (1, 1)]) = 0 := by simp [lmin]
    have e5 : lmax (List.map Prod.fst [((20 : ℝ), (20 : ℝ))]) = 20 := by simp [lmax]
    have e6 : lmin (List.map Prod.fst [((20 : ℝ), (20 : ℝ))]) = 20 := by simp [lmin]
    have e7 : lmax (List.map Prod.snd [((20 : ℝ), (20 : ℝ))]) = 20 := by simp [lmax]
    have e8 : lmin (List.map Prod.snd [((20 : ℝ), (20 : ℝ))]) = 20 := by simp [lmin]
    unfold makeField
    simp only [e1, e2, e3, e4, e5, e6, e7, e8]
    norm_num; rfl
  have hcs : 0 < (⟨22, 22, 1, -1, -1, [(20, 20)], [(0, 0), (1, 1)]⟩ : Field2 ℝ).cs := one_pos
  have c0 : (⟨22, 22, 1, -1, -1, [(20, 20)], [(0, 0), (1, 1)]⟩ : Field2 ℝ).cell (0, 0) = (1, 1) := by
    unfold Field2.cell; norm_num <;> rfl
  have c1 : (⟨22, 22, 1, -1, -1, [(20, 20)], [(0, 0), (1, 1)]⟩ : Field2 ℝ).cell (1, 1) = (2, 2) := by
    unfold Field2.cell; norm_num <;> rfl
  have c20 : (⟨22, 22, 1, -1, -1, [(20, 20)], [(0, 0), (1, 1)]⟩ : Field2 ℝ).cell (20, 20) = (21, 21) := by
    unfold Field2.cell; norm_num <;> rfl
  have hs := bucket_far_no_match (sq := Real.sqrt) (f := ⟨22, 22, 1, -1, -1, [(20, 20)], [(0, 0), (1, 1)]⟩) hcs (by simp) false (nth := 1) (m := 1)
    le_rfl le_rfl 0 (20, 20) (by
      intro q hq
      simp only [List.mem_cons, List.not_mem_nil, or_false] at hq
      rcases hq with rfl | rfl
      · rw [c0, c20]
        refine ⟨by decide, ?_⟩
        rw [corner2_eq]; norm_num
      · rw [c1, c20]
        refine ⟨by decide, ?_⟩
        rw [corner2_eq]; norm_num)
  have hchk : (⟨22, 22, 1, -1, -1, [(20, 20)], [(0, 0), (1, 1)]⟩ : Field2 ℝ).checkCells = .ok () := by
    unfold Field2.checkCells
    refine Res.check_pos fun p hp => ?_
    simp only [List.cons_append, List.nil_append, List.mem_cons, List.not_mem_nil, or_false] at hp
    rcases hp with rfl | rfl | rfl
    · rw [c20]; decide
    · rw [c0]; decide
    · rw [c1]; decide
  unfold bucketMatch
  rw [hf, Res.ok_bind, hchk, Res.ok_bind]
  have hw : (List.range [((20 : ℝ), (20 : ℝ))].length).mapM (work1 Real.sqrt (⟨22, 22, 1, -1, -1, [(20, 20)], [(0, 0), (1, 1)]⟩ : Field2 ℝ) false
      (if [((0 : ℝ), (0 : ℝ)), (1, 1)].length < 1 then [((0 : ℝ), (0 : ℝ)), (1, 1)].length else 1) 1 [(20, 20)]) = .ok [[(⊤, none)]] := by
    refine Verif.Res.mapM_getElem rfl fun i hi hr => ?_
    have : i = 0 := by simpa using hi
    subst this
    exact hs
  rw [hw, Res.ok_bind]
  have hr : (List.range [((0 : ℝ), (0 : ℝ)), (1, 1)].length).mapM (work2 Real.sqrt (⟨22, 22, 1, -1, -1, [(20, 20)], [(0, 0), (1, 1)]⟩ : Field2 ℝ)
      (!false && false) [(0, 0), (1, 1)]) = .ok [noMatch, noMatch] := rfl
  rw [hr]
  rfl

/-- an exact square root on the squares of rationals -/
def ratSqrt (x : ℚ) : ℚ := (Nat.sqrt x.num.toNat : ℚ) / (Nat.sqrt x.den : ℚ)

theorem ratSqrt_sq (a : ℚ) (h : 0 ≤ a) : ratSqrt (a * a) = a := by
  unfold ratSqrt
  have h1 : (a * a).num = a.num * a.num := Rat.mul_self_num a
  have h2 : (a * a).den = a.den * a.den := Rat.mul_self_den a
  rw [h1, h2, Nat.sqrt_eq]
  have h3 : 0 ≤ a.num := Rat.num_nonneg.2 h
  have h4 : (a.num * a.num).toNat = a.num.toNat * a.num.toNat := by
    rw [Int.toNat_mul h3 h3]
  rw [h4, Nat.sqrt_eq]
  have : ((a.num.toNat : Nat) : ℚ) = (a.num : ℚ) := by
    exact_mod_cast congrArg (fun z : Int => (z : ℚ)) (Int.toNat_of_nonneg h3)
  rw [this]
  exact Rat.num_div_den a

/-- **C57**, what fails (2): the buckets straight above, below, left and right of the one of the source are listed twice, so that with two
neighbours asked for the nearest one is reported twice. The only square roots taken are those of 0 and 1. -/
theorem C57_duplicate_refuted : ∃ c1 c2 : List (ℚ × ℚ),
    (bucketMatch ratSqrt false false 2 c1 c2).map XRes.fwd = .ok [[((1/2 : ℚ), some 1), ((1/2 : ℚ), some 1)]] ∧
    (brute (fun i j => sqDist (c1.getD i 0) (c2.getD j 0)) false false 2 c1.length c2.length).map XRes.fwd =
      .ok [[((1/2 : ℚ), some 1), ((5/2 : ℚ), some 0)]] := by
  refine ⟨[(3/2, 1/2)], [(0, 0), (1, 1)], ?_, ?_⟩
  · decide +kernel
  · decide +kernel

omit [IsStrictOrderedRing K] in
/-- **C57**, what fails (3): a second catalogue without extent in one direction - a single source for instance - is undefined behaviour. -/
theorem C57_no_extent_refuted {sq : K → K} (h0 : sq 0 = 0) (self mirror : Bool) (nth : Nat) (c1 c2 : List (K × K))
    (h : (∀ a ∈ c2, ∀ b ∈ c2, a.1 = b.1) ∨ ∀ a ∈ c2, ∀ b ∈ c2, a.2 = b.2) : bucketMatch sq self mirror nth c1 c2 = .ub := by
  have key : ∀ g : K × K → K, (∀ a ∈ c2, ∀ b ∈ c2, g a = g b) → lmax (c2.map g) - lmin (c2.map g) = 0 := by
    intro g hg
    by_cases hc : c2 = []
    · subst hc; simp [lmax, lmin]
    · have hne : c2.map g ≠ [] := by simpa using hc
      obtain ⟨a, ha, ea⟩ := List.mem_map.1 (lmax_mem hne)
      obtain ⟨b, hb, eb⟩ := List.mem_map.1 (lmin_mem hne)
      rw [← ea, ← eb, hg a ha b hb, sub_self]
  have : makeField sq c1 c2 = .ub := by
    unfold makeField
    rw [if_pos]
    rcases h with h | h
    · rw [key _ h, zero_mul, h0]
    · rw [key _ h, mul_zero, h0]
  unfold bucketMatch
  rw [this]; rfl

omit [IsStrictOrderedRing K] in
/-- **C57**, what fails (4): the cross-match of a catalogue with itself has no reverse matches with the bucket search, and has them by brute
force. -/
theorem C57_self_reverse_refuted {sq : K → K} (mirror : Bool) (nth : Nat) (c1 c2 : List (K × K)) (r : XRes K)
    (h : bucketMatch sq true mirror nth c1 c2 = .ok r) : r.rev = List.replicate c2.length (⊤, none) := by
  unfold bucketMatch at h
  obtain ⟨f, -, h⟩ := Verif.Res.bind_eq_ok.1 h
  obtain ⟨_, -, h⟩ := Verif.Res.bind_eq_ok.1 h
  obtain ⟨F, -, h⟩ := Verif.Res.bind_eq_ok.1 h
  obtain ⟨R, hR, h⟩ := Verif.Res.bind_eq_ok.1 h
  injection h with h
  subst h
  have : (List.range c2.length).mapM (work2 sq f (!true && mirror) c2) = .ok (List.replicate c2.length noMatch) := by
    refine Verif.Res.mapM_getElem (by simp) fun i hi hr => ?_
    simp only [List.getElem_range, List.getElem_replicate]
    have hi' : i < c2.length := by simpa using hi
    unfold work2
    rw [List.getElem?_eq_getElem hi']
    rfl
  rw [this] at hR
  injection hR with hR
  exact hR.symm

example : ((brute (K := ℚ) (fun i j => if i = j then 0 else 1) true true 1 2 2).map XRes.rev) = .ok [(1, some 1), (1, some 0)] := by
  decide +kernel

/-- not vacuous: the hypotheses of the positive part hold of real catalogues, with `Real.sqrt` -/
example : IsSqrt Real.sqrt := ⟨Real.sqrt_nonneg, fun x h => Real.mul_self_sqrt h⟩
example : WithinSide [((1 : ℚ), (0 : ℚ))] [(0, 0), (1, 1)] 1 := ⟨(1, 0), by simp, (0, 0), by simp, .inl (by norm_num)⟩
example : (bucketMatch ratSqrt false true 1 [((3/2 : ℚ), (1/2 : ℚ))] [(0, 0), (1, 1)]).map (fun r => (r.fwd, r.rev.map Prod.snd)) =
    .ok ([[((1/2 : ℚ), some 1)]], [some 0, some 0]) := by decide +kernel

end Verif.Qx
