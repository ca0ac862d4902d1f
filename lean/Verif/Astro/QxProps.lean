import Verif.Astro.QxBrute
import Mathlib.Algebra.Order.Ring.Rat
import Mathlib.Data.List.Range
/-!
# C56: brute-force cross-match; C58: mutual best matches
-/
namespace Verif.Qx
open Verif

variable {K : Type} [LinearOrder K]

/-- the column holds the `nth` nearest sources of `C` in increasing distance (the smaller index first when two are as near), with those
distances, and is filled with `(∞, npos)` when there are fewer than `nth` of them -/
def NthNearest (d : Nat → K) (C : Nat → Prop) (nth : Nat) (col : List (Entry K)) : Prop :=
  ∃ l : List Nat, (∀ j, j ∈ l ↔ C j) ∧ l.Pairwise (fun a b => d a < d b ∨ (d a = d b ∧ a < b)) ∧
    col = ((l.take nth).map fun j => (((d j : K) : WithTop K), some j)) ++ List.replicate (nth - l.length) (⊤, none)

/-- the sources of the second catalogue that `i` is compared to -/
def Other (self : Bool) (n i j : Nat) : Prop := j < n ∧ (self = true → i ≠ j)

theorem allowed_iff {self : Bool} {i j : Nat} : allowed self i j = true ↔ (self = true → i ≠ j) := by
  cases self <;> simp [allowed]

theorem colOf_nearest (d : Nat → K) (self : Bool) (nth n2 i : Nat) :
    NthNearest d (Other self n2 i) nth (colOf d nth ((List.range n2).filter (allowed self i))) := by
  have hp := isort_perm d ((List.range n2).filter (allowed self i))
  refine ⟨isort d ((List.range n2).filter (allowed self i)), fun j => ?_, isort_closer ?_, ?_⟩
  · rw [hp.mem_iff, List.mem_filter, List.mem_range, allowed_iff]; rfl
  · exact List.Pairwise.filter _ List.pairwise_lt_range
  · unfold colOf
    rw [hp.length_eq]
    congr 2
    omega

/-- **C56** (one thread). -/
theorem C56_brute (dist : Nat → Nat → K) (mirror self : Bool) (nth n1 n2 : Nat) (hn : 1 ≤ nth) :
    ∃ r, brute dist mirror self nth n1 n2 = .ok r ∧ r.fwd.length = n1 ∧ r.rev.length = n2 ∧
      (∀ i col, r.fwd[i]? = some col → NthNearest (dist i) (Other self n2 i) nth col) ∧
      (mirror = true → ∀ j e, r.rev[j]? = some e → FirstNearest (fun i => dist i j) (fun i => i < n1 ∧ (self = true → i ≠ j)) e) := by
  obtain ⟨r, g1, g0, g2, g3, g4⟩ := rows_eq dist mirror self nth n2 hn (List.range n1) List.nodup_range
    (XRes.init nth n1 n2) (fun i hi => init_fwd (List.mem_range.1 hi)) (by simp [XRes.init])
  have g0' : r.fwd.length = n1 := by rw [g0]; simp [XRes.init]
  refine ⟨r, g1, g0', g3, fun i col h => ?_, fun hm j e h => ?_⟩
  · have hi : i < n1 := by rw [← g0']; exact (List.getElem?_eq_some_iff.1 h).1
    rw [g2, if_pos (List.mem_range.2 hi)] at h
    injection h with h
    rw [← h]
    exact colOf_nearest _ _ _ _ _
  · have hj : j < n2 := by rw [← g3]; exact (List.getElem?_eq_some_iff.1 h).1
    have h0 : (XRes.init nth n1 n2 : XRes K).rev[j]? = some noMatch := by simp [XRes.init, hj]
    rw [g4, h0, hm] at h
    simp only [if_true, Option.map_some, Option.some.injEq] at h
    rw [← h]
    have := revFold_spec dist self j (List.range n1) List.pairwise_lt_range
    simpa only [List.mem_range, allowed_iff] using this

/-- **C56** (threads): the same neighbours whatever the number of threads; the reverse matches have the smallest distance. Missing: more threads than sources, which stops the program. -/
theorem C56_threads_partial (dist : Nat → Nat → K) (mirror self : Bool) (nth n1 n2 nt assigned : Nat) (hn : 1 ≤ nth) (hnt : 1 ≤ nt)
    (h0 : 1 ≤ assigned) (has' : assigned * (nt - 1) < n1) (hW : n1 < 2 ^ 64) :
    ∃ r, bruteThreads dist mirror self nth n1 n2 nt assigned = .ok r ∧ r.fwd.length = n1 ∧ r.rev.length = n2 ∧
      (∀ i col, r.fwd[i]? = some col → NthNearest (dist i) (Other self n2 i) nth col) ∧
      (mirror = true → ∀ j e, r.rev[j]? = some e → SomeNearest (fun i => dist i j) (fun i => i < n1 ∧ (self = true → i ≠ j)) e) := by
  have has := has'.le
  obtain ⟨r, h1, h2, h3, h4, _, h6⟩ := threads_eq dist mirror self nth n1 n2 nt assigned hn h0 has' hW nt le_rfl
  refine ⟨r, h1, h2, h3, fun i col h => ?_, fun hm j e h => ?_⟩
  · have hi : i < n1 := by rw [← h2]; exact (List.getElem?_eq_some_iff.1 h).1
    rw [h4 i (chunk_cover hnt has hi)] at h
    injection h with h
    rw [← h]
    exact colOf_nearest _ _ _ _ _
  · have := h6 hm j e h
    have hc : ∀ i, ((∃ t, t < nt ∧ i ∈ chunk n1 nt assigned t) ∧ allowed self i j = true) ↔ (i < n1 ∧ (self = true → i ≠ j)) := by
      intro i
      rw [allowed_iff]
      refine and_congr_left fun _ => ⟨fun ⟨t, ht, hi⟩ => chunk_lt ht has hi, fun hi => chunk_cover hnt has hi⟩
    simpa only [hc] using this

theorem nthNearest_unique {d : Nat → K} {C : Nat → Prop} {nth : Nat} {a b : List (Entry K)} (ha : NthNearest d C nth a)
    (hb : NthNearest d C nth b) : a = b := by
  obtain ⟨l, h1, h2, rfl⟩ := ha
  obtain ⟨m, g1, g2, rfl⟩ := hb
  have irr : ∀ x, ¬ (d x < d x ∨ (d x = d x ∧ x < x)) := by simp
  have nd : ∀ {l : List Nat}, l.Pairwise (fun a b => d a < d b ∨ (d a = d b ∧ a < b)) → l.Nodup := by
    intro l h
    refine h.imp ?_
    rintro x y h rfl
    exact irr x h
  have hp : l.Perm m := (List.perm_ext_iff_of_nodup (nd h2) (nd g2)).2 fun x => by rw [h1, g1]
  have : l = m := by
    refine hp.eq_of_pairwise (fun x y _ _ hxy hyx => ?_) h2 g2
    rcases hxy with h | h <;> rcases hyx with g | g
    · exact absurd h (not_lt.2 g.le)
    · rw [g.1] at h; exact absurd h (lt_irrefl _)
    · rw [h.1] at g; exact absurd g (lt_irrefl _)
    · omega
  rw [this]

/-- **C56** (threads, second form): the neighbours reported by any two numbers of threads are the same, ties included. -/
theorem C56_threads_agree (dist : Nat → Nat → K) (mirror self : Bool) (nth n1 n2 nt assigned : Nat) (hn : 1 ≤ nth) (hnt : 1 ≤ nt)
    (h0 : 1 ≤ assigned) (has : assigned * (nt - 1) < n1) (hW : n1 < 2 ^ 64) :
    (bruteThreads dist mirror self nth n1 n2 nt assigned).map XRes.fwd = (brute dist mirror self nth n1 n2).map XRes.fwd := by
  obtain ⟨r, h1, h2, _, h4, _⟩ := C56_threads_partial dist mirror self nth n1 n2 nt assigned hn hnt h0 has hW
  obtain ⟨s, g1, g2, _, g4, _⟩ := C56_brute dist mirror self nth n1 n2 hn
  rw [h1, g1]
  simp only [Res.map_ok, Res.ok.injEq]
  refine List.ext_getElem (by omega) fun i hi hi' => ?_
  exact nthNearest_unique (h4 i _ (List.getElem?_eq_getElem hi)) (g4 i _ (List.getElem?_eq_getElem hi'))

/-- **C56**, what fails: the index of the reverse match of a source with two neighbours at the same distance depends on the number of
threads, the last thread wins. -/
theorem C56_reverse_ties_refuted : ∃ (dist : Nat → Nat → ℚ) (n1 n2 : Nat),
    ((brute dist true false 1 n1 n2).map fun r => r.rev.map Prod.snd) = .ok [some 0] ∧
    ((bruteThreads dist true false 1 n1 n2 2 1).map fun r => r.rev.map Prod.snd) = .ok [some 1] :=
  ⟨fun _ _ => 1, 2, 1, by decide +kernel, by decide +kernel⟩

/-- not vacuous: three sources, two neighbours each, with a tie -/
example : ((brute (K := ℚ) (fun i j => if i = 0 then [5, 2, 2].getD j 0 else [1, 7, 4].getD j 0) true false 2 2 3).map
    fun r => (r.fwd.map fun c => c.map Prod.snd, r.rev.map Prod.snd)) =
    .ok ([[some 1, some 2], [some 0, some 2]], [some 1, some 0, some 0]) := by decide +kernel
example : ((bruteThreads (K := ℚ) (fun i j => if i = 0 then [5, 2, 2].getD j 0 else [1, 7, 4].getD j 0) true false 2 2 3 2 1).map
    fun r => (r.fwd.map fun c => c.map Prod.snd, r.rev.map Prod.snd)) =
    .ok ([[some 1, some 2], [some 0, some 2]], [some 1, some 0, some 0]) := by decide +kernel

/-- **C56**, what fails: with less sources in the first catalogue than threads, the program stops when it merges the results, as `0-_-(0-1)` is out of bounds. -/
theorem C56_few_refuted (dist : Nat → Nat → K) (mirror self : Bool) (nth n1 n2 nt : Nat) (hn : 1 ≤ nth) (hnt : 2 ≤ nt) (h : n1 < nt) (hW : n1 < 2 ^ 64) :
    bruteThreads dist mirror self nth n1 n2 nt (n1 / nt) = .abort := by
  obtain ⟨m, rfl⟩ : ∃ m, nt = m + 1 := ⟨nt - 1, by omega⟩
  rw [Nat.div_eq_of_lt h]
  have hc : chunk n1 (m + 1) 0 0 = [] := by
    unfold chunk
    rw [if_neg (by omega)]
    rfl
  unfold bruteThreads
  rw [List.range_succ_eq_map, List.foldlM_cons, hc]
  have hl : (XRes.init nth n1 n2 : XRes K).fwd.length = n1 := by simp [XRes.init]
  have : mergeOne mirror 0 (0 * 0) [] (XRes.init nth n1 n2) (XRes.init nth n1 n2 : XRes K) = .abort := by
    unfold mergeOne
    rw [hl, Nat.mul_zero, List.length_nil, checkRange_empty n1 hW]
    rfl
  show (mergeOne mirror 0 (0 * 0) [] (XRes.init nth n1 n2) (XRes.init nth n1 n2 : XRes K) >>= _) = _
  rw [this]
  rfl


/-! ### C58 -/

/-- the match of `i` is `j` and the match of `j` is `i` -/
def Mutual (id rid : List (Option Nat)) (i j : Nat) : Prop := id[i]? = some (some j) ∧ rid[j]? = some (some i)

instance (id rid : List (Option Nat)) (i j : Nat) : Decidable (Mutual id rid i j) := inferInstanceAs (Decidable (_ ∧ _))

theorem cleanLoop_ok (id rid : List (Option Nat)) (hv : ∀ (i : Nat) o, id[i]? = some o → ∃ j, o = some j ∧ j < rid.length) :
    ∀ (ids : List (Option Nat)) (i : Nat) (c : IdPair), ids = id.drop i →
    (c.id1.length = c.id2.length ∧ (∀ (k : Nat) a b, c.id1[k]? = some a → c.id2[k]? = some b → Mutual id rid a b) ∧
      (∀ a b, a < i → Mutual id rid a b → a ∈ c.id1) ∧ c.id1.Pairwise (· < ·) ∧ (∀ a ∈ c.id1, a < i) ∧ c.lost.Pairwise (· < ·) ∧
      (∀ a, a ∈ c.lost ↔ a < i ∧ a < id.length ∧ a ∉ c.id1)) →
    ∃ c', cleanLoop rid i ids c = .ok c' ∧
      (c'.id1.length = c'.id2.length ∧ (∀ (k : Nat) a b, c'.id1[k]? = some a → c'.id2[k]? = some b → Mutual id rid a b) ∧
      (∀ a b, Mutual id rid a b → a ∈ c'.id1) ∧ c'.id1.Pairwise (· < ·) ∧ c'.lost.Pairwise (· < ·) ∧
      (∀ a, a ∈ c'.lost ↔ a < id.length ∧ a ∉ c'.id1)) := by
  intro ids
  induction ids with
  | nil =>
    rintro i c hd ⟨h1, h2, h3, h4, h5, h6, h7⟩
    have hi : id.length ≤ i := by
      by_contra h
      have : (id.drop i).length = 0 := by rw [← hd]; rfl
      rw [List.length_drop] at this; omega
    refine ⟨c, rfl, h1, h2, fun a b hab => h3 a b ?_ hab, h4, h6, fun a => ?_⟩
    · have := (List.getElem?_eq_some_iff.1 hab.1).1; omega
    · rw [h7]; constructor
      · rintro ⟨_, h⟩; exact h
      · rintro ⟨h, g⟩; exact ⟨by omega, h, g⟩
  | cons o ids ih =>
    rintro i c hd ⟨h1, h2, h3, h4, h5, h6, h7⟩
    have hi : i < id.length := by
      by_contra h
      rw [List.drop_of_length_le (by omega)] at hd; cases hd
    have ho : id[i]? = some o := by
      have := congrArg (fun l => l[0]?) hd
      simpa using this.symm
    have hd' : ids = id.drop (i + 1) := by
      have := congrArg List.tail hd
      simpa using this
    obtain ⟨j, rfl, hj⟩ := hv i o ho
    have hr : reverseOf rid (some j) = .ok rid[j] := by
      simp [reverseOf, hj, Verif.Res.rd_lt hj]
    unfold cleanLoop
    rw [hr, Res.ok_bind]
    simp only
    split
    · rename_i hb
      have hm : Mutual id rid i j := ⟨ho, by rw [List.getElem?_eq_getElem hj, hb]⟩
      refine ih (i + 1) _ hd' ⟨by simp [h1], ?_, ?_, ?_, ?_, h6, ?_⟩
      · intro k a b ha hb
        simp only [List.getElem?_append] at ha hb
        rw [← h1] at hb
        split at ha
        · rename_i hk
          rw [if_pos hk] at hb
          exact h2 k a b ha hb
        · rename_i hk
          rw [if_neg hk] at hb
          generalize k - c.id1.length = m at ha hb
          cases m with
          | zero =>
            simp at ha hb
            rw [← ha, ← hb]; exact hm
          | succ m => simp at ha
      · intro a b ha hab
        rcases Nat.lt_succ_iff_lt_or_eq.1 ha with h | rfl
        · simp [h3 a b h hab]
        · simp
      · rw [List.pairwise_append]
        exact ⟨h4, List.pairwise_singleton _ _, fun a ha b hb => by rw [List.mem_singleton.1 hb]; exact h5 a ha⟩
      · intro a ha
        rcases List.mem_append.1 ha with h | h
        · have := h5 a h; omega
        · rw [List.mem_singleton.1 h]; omega
      · intro a
        rw [h7]
        simp only [List.mem_append, List.mem_singleton, not_or]
        constructor
        · rintro ⟨h, g, k⟩; exact ⟨by omega, g, k, by omega⟩
        · rintro ⟨h, g, k, l⟩; exact ⟨by omega, g, k⟩
    · rename_i hb
      have hm : i ∉ c.id1 := fun h => by have := h5 i h; omega
      refine ih (i + 1) _ hd' ⟨h1, h2, ?_, h4, ?_, ?_, ?_⟩
      · intro a b ha hab
        rcases Nat.lt_succ_iff_lt_or_eq.1 ha with h | rfl
        · exact h3 a b h hab
        · exfalso
          have h8 := hab.1
          rw [ho] at h8
          injection h8 with h8
          injection h8 with h8
          subst h8
          have h9 := hab.2
          rw [List.getElem?_eq_getElem hj] at h9
          injection h9 with h9
          exact hb h9
      · intro a ha; have := h5 a ha; omega
      · rw [List.pairwise_append]
        refine ⟨h6, List.pairwise_singleton _ _, fun a ha b hb => ?_⟩
        rw [List.mem_singleton.1 hb]; exact ((h7 a).1 ha).1
      · intro a
        simp only [List.mem_append, List.mem_singleton, h7]
        constructor
        · rintro (⟨h, g, k⟩ | rfl)
          · exact ⟨by omega, g, k⟩
          · exact ⟨by omega, hi, hm⟩
        · rintro ⟨h, g, k⟩
          rcases Nat.lt_succ_iff_lt_or_eq.1 h with h | rfl
          · exact .inl ⟨h, g, k⟩
          · exact .inr rfl

/-- **C58**: when every source has a match, the pairs kept are exactly the mutual best ones, no source of either catalogue is used twice,
and `lost` has all the others, in order. -/
theorem C58_clean_best (id rid : List (Option Nat)) (hv : ∀ (i : Nat) o, id[i]? = some o → ∃ j, o = some j ∧ j < rid.length) :
    ∃ c, cleanBest id rid = .ok c ∧ c.id1.length = c.id2.length ∧
      (∀ i j, (∃ k : Nat, c.id1[k]? = some i ∧ c.id2[k]? = some j) ↔ Mutual id rid i j) ∧
      c.id1.Pairwise (· < ·) ∧ c.id2.Nodup ∧ c.lost.Pairwise (· < ·) ∧
      ∀ i, i ∈ c.lost ↔ i < id.length ∧ ∀ j, ¬ Mutual id rid i j := by
  obtain ⟨c, h0, h1, h2, h3, h4, h6, h7⟩ := cleanLoop_ok id rid hv id 0 ⟨[], [], []⟩ (by simp)
    ⟨rfl, by simp, by simp, by simp, by simp, by simp, by simp⟩
  have key : ∀ i j, (∃ k : Nat, c.id1[k]? = some i ∧ c.id2[k]? = some j) ↔ Mutual id rid i j := by
    intro i j
    constructor
    · rintro ⟨k, a, b⟩; exact h2 k i j a b
    · intro hm
      obtain ⟨k, hk, hki⟩ := List.getElem_of_mem (h3 i j hm)
      have hk2 : k < c.id2.length := by omega
      refine ⟨k, by rw [List.getElem?_eq_getElem hk, hki], ?_⟩
      have := h2 k i c.id2[k] (by rw [List.getElem?_eq_getElem hk, hki]) (List.getElem?_eq_getElem hk2)
      have e := this.1.symm.trans hm.1
      injection e with e
      rw [List.getElem?_eq_getElem hk2, e]
  refine ⟨c, h0, h1, key, h4, ?_, h6, fun i => ?_⟩
  · rw [List.nodup_iff_getElem?_ne_getElem?]
    intro a b hab hb he
    have ha : a < c.id2.length := by omega
    have ma := h2 a c.id1[a] c.id2[a] (List.getElem?_eq_getElem _) (List.getElem?_eq_getElem _)
    have mb := h2 b c.id1[b] c.id2[b] (List.getElem?_eq_getElem _) (List.getElem?_eq_getElem _)
    rw [List.getElem?_eq_getElem ha, List.getElem?_eq_getElem hb] at he
    injection he with he
    have e := ma.2.symm.trans (he ▸ mb.2)
    injection e with e
    injection e with e
    have := List.pairwise_iff_getElem.1 h4 a b (by omega) (by omega) hab
    omega
  · rw [h7]
    refine and_congr_right fun _ => ?_
    constructor
    · intro h j hm; exact h (h3 i j hm)
    · intro h hi
      obtain ⟨k, hk, hki⟩ := List.getElem_of_mem hi
      exact h _ (h2 k i c.id2[k] (by rw [List.getElem?_eq_getElem hk, hki]) (List.getElem?_eq_getElem _))

/-- **C58**, on the result of the cross-match of two catalogues that are not empty: `i` and `j` are kept together exactly when `j` is the
nearest source of `i` and `i` the nearest source of `j` (the first one among equals). -/
theorem C58_of_brute (dist : Nat → Nat → K) (nth n1 n2 : Nat) (hn : 1 ≤ nth) (h1 : 1 ≤ n1) (h2 : 1 ≤ n2) :
    ∃ r c, brute dist true false nth n1 n2 = .ok r ∧
      cleanBest (r.fwd.map fun col => (col.head?.map Prod.snd).join) (r.rev.map Prod.snd) = .ok c ∧ c.id2.Nodup ∧ c.id1.Nodup ∧
      ∀ i j, (∃ k : Nat, c.id1[k]? = some i ∧ c.id2[k]? = some j) ↔ i < n1 ∧ j < n2 ∧
        (∀ l, l < n2 → dist i j < dist i l ∨ (dist i j = dist i l ∧ j ≤ l)) ∧
        ∀ l, l < n1 → dist i j < dist l j ∨ (dist i j = dist l j ∧ i ≤ l) := by
  obtain ⟨r, e, hl1, hl2, hf, hr⟩ := C56_brute dist true false nth n1 n2 hn
  have id_spec : ∀ i, i < n1 → ∃ j, (r.fwd.map fun col => (col.head?.map Prod.snd).join)[i]? = some (some j) ∧ j < n2 ∧
      ∀ l, l < n2 → dist i j < dist i l ∨ (dist i j = dist i l ∧ j ≤ l) := by
    intro i hi
    obtain ⟨l, g1, g2, g3⟩ := hf i _ (List.getElem?_eq_getElem (by omega))
    cases l with
    | nil => exact absurd ((g1 0).2 ⟨by omega, by simp⟩) (by simp)
    | cons j l =>
      refine ⟨j, ?_, ((g1 j).1 (by simp)).1, fun m hm => ?_⟩
      · rw [List.getElem?_map, List.getElem?_eq_getElem (by omega), g3]
        obtain ⟨n, rfl⟩ : ∃ n, nth = n + 1 := ⟨nth - 1, by omega⟩
        simp
      · rcases List.mem_cons.1 ((g1 m).2 ⟨hm, by simp⟩) with rfl | h
        · exact .inr ⟨rfl, le_rfl⟩
        · rcases (List.pairwise_cons.1 g2).1 m h with h | h
          · exact .inl h
          · exact .inr ⟨h.1, h.2.le⟩
  have rid_spec : ∀ j, j < n2 → ∃ i, (r.rev.map Prod.snd)[j]? = some (some i) ∧ i < n1 ∧
      ∀ l, l < n1 → dist i j < dist l j ∨ (dist i j = dist l j ∧ i ≤ l) := by
    intro j hj
    rcases hr rfl j _ (List.getElem?_eq_getElem (by omega)) with ⟨_, h⟩ | ⟨i, g1, g2, g3⟩
    · exact absurd ⟨by omega, by simp⟩ (h 0)
    · refine ⟨i, ?_, g1.1, fun l hl => g3 l ⟨hl, by simp⟩⟩
      rw [List.getElem?_map, List.getElem?_eq_getElem (by omega), g2]; rfl
  obtain ⟨c, hc, _, hm, hi1, hi2, _, _⟩ := C58_clean_best (r.fwd.map fun col => (col.head?.map Prod.snd).join) (r.rev.map Prod.snd)
    (fun i o ho => by
      have hi : i < n1 := by have := (List.getElem?_eq_some_iff.1 ho).1; simpa [hl1] using this
      obtain ⟨j, a, b, _⟩ := id_spec i hi
      rw [a] at ho; injection ho with ho
      exact ⟨j, ho.symm, by simpa [hl2] using b⟩)
  refine ⟨r, c, e, hc, hi2, hi1.imp (fun h => Nat.ne_of_lt h), fun i j => ?_⟩
  rw [hm]
  constructor
  · rintro ⟨a, b⟩
    have hi : i < n1 := by have := (List.getElem?_eq_some_iff.1 a).1; simpa [hl1] using this
    have hj : j < n2 := by have := (List.getElem?_eq_some_iff.1 b).1; simpa [hl2] using this
    obtain ⟨j', a1, a2, a3⟩ := id_spec i hi
    obtain ⟨i', b1, b2, b3⟩ := rid_spec j hj
    rw [a] at a1; rw [b] at b1
    simp only [Option.some.injEq] at a1 b1
    subst a1; subst b1
    exact ⟨hi, hj, a3, b3⟩
  · rintro ⟨hi, hj, a, b⟩
    obtain ⟨j', a1, a2, a3⟩ := id_spec i hi
    obtain ⟨i', b1, b2, b3⟩ := rid_spec j hj
    have ej : j' = j := by
      rcases a j' a2 with h | h <;> rcases a3 j hj with g | g
      · exact absurd h (not_lt.2 g.le)
      · rw [g.1] at h; exact absurd h (lt_irrefl _)
      · rw [h.1] at g; exact absurd g (lt_irrefl _)
      · omega
    have ei : i' = i := by
      rcases b i' b2 with h | h <;> rcases b3 i hi with g | g
      · exact absurd h (not_lt.2 g.le)
      · rw [g.1] at h; exact absurd h (lt_irrefl _)
      · rw [h.1] at g; exact absurd g (lt_irrefl _)
      · omega
    exact ⟨by rw [a1, ej], by rw [b1, ei]⟩

theorem cleanLoop_abort (rid : List (Option Nat)) : ∀ (ids : List (Option Nat)) (i : Nat) (c : IdPair),
    (∃ o ∈ ids, o = none ∨ ∃ j, o = some j ∧ rid.length ≤ j) → cleanLoop rid i ids c = .abort
  | [], _, _, h => by simp at h
  | o :: ids, i, c, h => by
    unfold cleanLoop
    by_cases ho : ∃ j, o = some j ∧ j < rid.length
    · obtain ⟨j, rfl, hj⟩ := ho
      have hr : reverseOf rid (some j) = .ok rid[j] := by simp [reverseOf, hj, Verif.Res.rd_lt hj]
      have h' : ∃ o ∈ ids, o = none ∨ ∃ j, o = some j ∧ rid.length ≤ j := by
        obtain ⟨o, ho, h⟩ := h
        rcases List.mem_cons.1 ho with rfl | ho
        · rcases h with h | ⟨k, h1, h2⟩
          · cases h
          · injection h1 with h1; omega
        · exact ⟨o, ho, h⟩
      rw [hr, Res.ok_bind]
      simp only
      split
      · exact cleanLoop_abort rid ids _ _ h'
      · exact cleanLoop_abort rid ids _ _ h'
    · have : reverseOf rid o = .abort := by
        cases o with
        | none => rfl
        | some j => simp only [reverseOf]; rw [if_neg fun h => ho ⟨j, rfl, h⟩]
      rw [this]; rfl

/-- **C58**, what fails: as soon as one source has no match the whole call aborts, instead of reporting the source in `lost`; and it always
aborts on a result made with `no_mirror`, which has no reverse matches. -/
theorem C58_unmatched_refuted : (∀ id rid, none ∈ id → cleanBest id rid = .abort) ∧
    (∀ id : List (Option Nat), id ≠ [] → cleanBest id [] = .abort) := by
  refine ⟨fun id rid h => cleanLoop_abort rid id 0 _ ⟨none, h, .inl rfl⟩, fun id h => ?_⟩
  cases id with
  | nil => exact absurd rfl h
  | cons o l =>
    refine cleanLoop_abort [] _ 0 _ ⟨o, by simp, ?_⟩
    cases o with
    | none => exact .inl rfl
    | some j => exact .inr ⟨j, rfl, by simp⟩

/-- reached: a source that is alone in both catalogues, matched to itself excluded -/
example : ((brute (K := ℚ) (fun _ _ => 0) true true 1 1 1).map fun r => r.fwd.map fun col => (col.head?.map Prod.snd).join) = .ok [none] := by
  decide +kernel
example : cleanBest [some 1, some 1, some 0] [some 2, some 0] = .ok ⟨[0, 2], [1, 0], [1]⟩ := by decide

end Verif.Qx
