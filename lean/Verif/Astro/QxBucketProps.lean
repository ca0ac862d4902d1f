import Verif.Astro.QxBucket
import Mathlib.Data.Rat.Floor
import Mathlib.Algebra.Field.Rat
/-!
# C57: the bucket search against brute force
-/
namespace Verif.Qx
open Verif

variable {K : Type} [LinearOrder K] [Field K] [IsStrictOrderedRing K] [FloorRing K]

/-- the distance proxies from `p` to the sources of a catalogue -/
def distTo (c : List (K × K)) (p : K × K) (j : Nat) : K := match c[j]? with
  | some q => sqDist p q
  | none => 0

/-- the sources looked at by `work1` down to the depth `n` (excluded) -/
def seen (f : Field2 K) (c : List (K × K)) (o : Nat × Nat) (ok : Nat → Bool) (n : Nat) : List Nat :=
  (List.range n).flatMap fun k => (f.found c o k).filter ok

theorem mem_seen {f : Field2 K} {c : List (K × K)} {o : Nat × Nat} {ok : Nat → Bool} {n j : Nat} :
    j ∈ seen f c o ok n ↔ ok j = true ∧ ∃ k, k < n ∧ j ∈ f.found c o k := by
  simp only [seen, List.mem_flatMap, List.mem_range, List.mem_filter]
  constructor
  · rintro ⟨k, a, b, c⟩; exact ⟨c, k, a, b⟩
  · rintro ⟨c, k, a, b⟩; exact ⟨k, a, b, c⟩

theorem found_get {f : Field2 K} {c : List (K × K)} {o : Nat × Nat} {n j : Nat} (h : j ∈ f.found c o n) : ∃ q, c[j]? = some q := by
  obtain ⟨_, _, q, h, _⟩ := mem_found.1 h
  exact ⟨q, h⟩

theorem seen_succ (f : Field2 K) (c : List (K × K)) (o : Nat × Nat) (ok : Nat → Bool) (n : Nat) :
    seen f c o ok (n + 1) = seen f c o ok n ++ (f.found c o n).filter ok := by
  simp [seen, List.range_succ, List.flatMap_append]

/-- the body of the loop of `work1` -/
theorem scan1 (self : Bool) (nth i : Nat) (p : K × K) (c2 : List (K × K)) (L : List Nat) (hL : ∀ j ∈ L, ∃ q, c2[j]? = some q) (c : List (Entry K)) :
    L.foldlM (step1 self nth i p c2) c = (L.filter (allowed self i)).foldlM (fun c j => insertNth nth c (distTo c2 p j) j) c := by
  induction L generalizing c with
  | nil => rfl
  | cons j L ih =>
    have ih' := ih (fun k hk => hL k (by simp [hk]))
    obtain ⟨q, hq⟩ := hL j (by simp)
    rw [List.foldlM_cons, step1]
    by_cases hs : (self && i == j) = true
    · rw [if_pos hs, Res.ok_bind, ih', List.filter_cons_of_neg (by simp only [allowed, hs]; decide)]
    · have hal : allowed self i j = true := by
        simp only [allowed]; rw [Bool.not_eq_true] at hs; rw [hs]; rfl
      rw [if_neg hs, hq, List.filter_cons_of_pos hal, List.foldlM_cons]
      have : distTo c2 p j = sqDist p q := by simp [distTo, hq]
      rw [this]
      congr 1
      funext c
      exact ih' c

theorem search1_spec (sq : K → K) (f : Field2 K) (self : Bool) {nth m : Nat} (hn : 1 ≤ nth) (hm : nth ≤ m) (i : Nat) (p : K × K) :
    ∀ (left n : Nat) (c : List (Entry K)), left + n = max f.nra f.ndec → 1 ≤ left →
    (seen f f.c2 (f.cell p) (allowed self i) n).foldlM (fun c j => insertNth nth c (distTo f.c2 p j) j) (List.replicate m noMatch) = .ok c →
    ∃ n' c' l, search1 sq f self nth i p left n c = .ok c' ∧ n' < max f.nra f.ndec ∧
      (seen f f.c2 (f.cell p) (allowed self i) (n' + 1)).foldlM (fun c j => insertNth nth c (distTo f.c2 p j) j) (List.replicate m noMatch) = .ok c' ∧
      c'[nth - 1]? = some l ∧ (l.1 ≤ ((f.reached sq p n' : K) : WithTop K) ∨ max f.nra f.ndec ≤ n' + 1) := by
  intro left
  induction left with
  | zero => intro n c _ h; omega
  | succ left ih =>
    intro n c hsum _ hc
    unfold search1
    rw [scan1 self nth i p f.c2 _ (fun j hj => found_get hj)]
    have hstep : (seen f f.c2 (f.cell p) (allowed self i) (n + 1)).foldlM (fun c j => insertNth nth c (distTo f.c2 p j) j)
        (List.replicate m noMatch) = ((f.found f.c2 (f.cell p) n).filter (allowed self i)).foldlM
          (fun c j => insertNth nth c (distTo f.c2 p j) j) c := by
      rw [seen_succ, List.foldlM_append, hc, Res.ok_bind]
    have hfull := insert_fold_init hn hm (distTo f.c2 p) (seen f f.c2 (f.cell p) (allowed self i) (n + 1))
    set c1 := ((isort (distTo f.c2 p) (seen f f.c2 (f.cell p) (allowed self i) (n + 1))).take nth).map (entry (distTo f.c2 p)) ++
      List.replicate (m - min nth (seen f f.c2 (f.cell p) (allowed self i) (n + 1)).length) noMatch with hc1
    have hlen : nth ≤ c1.length := by
      rw [hc1, List.length_append, List.length_map, List.length_take, (isort_perm _ _).length_eq, List.length_replicate]; omega
    rw [← hstep, hfull, Res.ok_bind, Verif.Res.rd_lt (by omega : nth - 1 < c1.length), Res.ok_bind]
    split
    · rename_i h
      exact ih (n + 1) c1 (by omega) (by omega) hfull
    · rename_i h
      refine ⟨n, c1, _, rfl, by omega, hfull, List.getElem?_eq_getElem (by omega), ?_⟩
      by_cases h1 : ((f.reached sq p n : K) : WithTop K) < c1[nth - 1].1
      · exact .inr (by by_contra hc; exact h ⟨h1, by omega⟩)
      · exact .inl (not_lt.1 h1)

/-- the column made of a list of sources -/
theorem column_spec {nth m : Nat} (hn : 1 ≤ nth) (hm : nth ≤ m) (d : Nat → K) (J : List Nat) {c : List (Entry K)}
    (h : J.foldlM (fun c j => insertNth nth c (d j) j) (List.replicate m noMatch) = .ok c) :
    c.length = m ∧ c.Pairwise (fun a b => a.1 ≤ b.1) ∧ (∀ e ∈ c, e = (⊤, none) ∨ ∃ j ∈ J, e = (((d j : K) : WithTop K), some j)) ∧
    (∀ j ∈ J, ∃ e, c.head? = some e ∧ e.1 ≤ ((d j : K) : WithTop K)) := by
  rw [insert_fold_init hn hm] at h
  injection h with h
  subst h
  have hl : (isort d J).length = J.length := (isort_perm d J).length_eq
  refine ⟨?_, ?_, ?_, ?_⟩
  · rw [List.length_append, List.length_map, List.length_take, hl, List.length_replicate]; omega
  · rw [List.pairwise_append]
    refine ⟨?_, List.pairwise_replicate.2 (.inr le_rfl), fun a _ b hb => ?_⟩
    · rw [List.pairwise_map]
      refine (List.Pairwise.sublist (List.take_sublist _ _) (isort_sorted d J)).imp fun h => ?_
      exact WithTop.coe_le_coe.2 h
    · rw [List.eq_of_mem_replicate hb]; exact le_top
  · intro e he
    rcases List.mem_append.1 he with h | h
    · obtain ⟨j, hj, rfl⟩ := List.mem_map.1 h
      exact .inr ⟨j, (isort_perm d J).mem_iff.1 (List.mem_of_mem_take hj), rfl⟩
    · exact .inl (List.eq_of_mem_replicate h)
  · intro j hj
    have hj' := (isort_perm d J).mem_iff.2 hj
    have hs := isort_sorted d J
    cases hi : isort d J with
    | nil => rw [hi] at hj'; simp at hj'
    | cons a t =>
      rw [hi] at hj' hs
      obtain ⟨k, rfl⟩ : ∃ k, nth = k + 1 := ⟨nth - 1, by omega⟩
      refine ⟨entry d a, by simp, ?_⟩
      rw [List.pairwise_cons] at hs
      rcases List.mem_cons.1 hj' with rfl | h
      · exact le_rfl
      · exact WithTop.coe_le_coe.2 (hs.1 j h)

theorem lowered {nth n2 : Nat} (hn : 1 ≤ nth) (h2 : 1 ≤ n2) : 1 ≤ (if n2 < nth then n2 else nth) ∧ (if n2 < nth then n2 else nth) ≤ nth := by
  split <;> omega

/-- `work1` on a source -/
theorem work1_spec {sq : K → K} (hsq0 : ∀ x, 0 ≤ sq x) (hsq : ∀ x, 0 ≤ x → sq x * sq x = x) {f : Field2 K} (hg : Good f) (self : Bool)
    {nth m : Nat} (hn : 1 ≤ nth) (hm : nth ≤ m) {i : Nat} {p : K × K} (hp : f.c1[i]? = some p) :
    ∃ c, search1 sq f self nth i p (max f.nra f.ndec) 0 (List.replicate m noMatch) = .ok c ∧ c.length = m ∧
      c.Pairwise (fun a b => a.1 ≤ b.1) ∧
      (∀ e ∈ c, e = (⊤, none) ∨ ∃ j q, f.c2[j]? = some q ∧ (self = true → i ≠ j) ∧ e = (((sqDist p q : K) : WithTop K), some j)) ∧
      ∀ k q, f.c2[k]? = some q → (self = true → i ≠ k) →
        (∃ u ∈ f.c1 ++ f.c2, ∃ v ∈ f.c1 ++ f.c2, sqDist p q ≤ (u.1 - v.1) * (u.1 - v.1) ∨ sqDist p q ≤ (u.2 - v.2) * (u.2 - v.2)) →
        ∃ e, c.head? = some e ∧ e.1 ≤ ((sqDist p q : K) : WithTop K) := by
  have htwo := hg.two
  obtain ⟨n', c, l, h1, h2, h3, h4, h5⟩ := search1_spec sq f self hn hm i p (max f.nra f.ndec) 0 _ (by omega) (by omega) rfl
  obtain ⟨g1, g2, g3, g4⟩ := column_spec hn hm _ _ h3
  have hp' : p ∈ f.c1 ++ f.c2 := List.mem_append_left _ (List.mem_of_getElem? hp)
  refine ⟨c, h1, g1, g2, fun e he => ?_, fun k q hk hs hside => ?_⟩
  · rcases g3 e he with h | ⟨j, hj, rfl⟩
    · exact .inl h
    · obtain ⟨ha, k, _, hf⟩ := mem_seen.1 hj
      obtain ⟨q, hq⟩ := found_get hf
      exact .inr ⟨j, q, hq, allowed_iff.1 ha, by simp [distTo, hq]⟩
  · have hq' : q ∈ f.c1 ++ f.c2 := List.mem_append_right _ (List.mem_of_getElem? hk)
    have seenk : (∃ r, r ≤ n' ∧ k ∈ f.found f.c2 (f.cell p) r) → ∃ e, c.head? = some e ∧ e.1 ≤ ((sqDist p q : K) : WithTop K) := by
      rintro ⟨r, hr, hf⟩
      obtain ⟨e, he1, he2⟩ := g4 k (mem_seen.2 ⟨allowed_iff.2 hs, r, by omega, hf⟩)
      refine ⟨e, he1, ?_⟩
      simpa [distTo, hk] using he2
    rcases h5 with h5 | h5
    · by_cases hlt : sqDist p q < f.reached sq p n'
      · exact seenk (found_of_reached hsq0 hsq hg hp' hq' hk hlt)
      · have hc0 : 0 < c.length := by omega
        refine ⟨c[0], by rw [List.head?_eq_getElem?, List.getElem?_eq_getElem hc0], ?_⟩
        have hl : c[0].1 ≤ l.1 := by
          obtain ⟨hlt', rfl⟩ := List.getElem?_eq_some_iff.1 h4
          rcases Nat.eq_zero_or_pos (nth - 1) with h0 | h0
          · simp only [h0]; exact le_rfl
          · exact List.pairwise_iff_getElem.1 g2 0 (nth - 1) hc0 hlt' h0
        exact hl.trans (h5.trans (WithTop.coe_le_coe.2 (not_lt.1 hlt)))
    · exact seenk (found_of_side hsq0 hsq hg hp' hq' hk h5 hside)

/-! ### The reverse search -/

theorem scan2 (q : K × K) (c1 : List (K × K)) (L : List Nat) (hL : ∀ i ∈ L, ∃ p, c1[i]? = some p) (e : Entry K) :
    L.foldlM (step2 q c1) e = .ok (L.foldl (fun e i => revUpd (distTo c1 q i) i e) e) := by
  induction L generalizing e with
  | nil => rfl
  | cons i L ih =>
    obtain ⟨p, hp⟩ := hL i (by simp)
    have hsym : sqDist q p = sqDist p q := by unfold sqDist; ring
    have hd : distTo c1 q i = sqDist p q := by simp [distTo, hp, hsym]
    rw [List.foldlM_cons, step2, hp, List.foldl_cons, hd]
    simp only
    have : (if ((sqDist p q : K) : WithTop K) < e.1 then Res.ok (((sqDist p q : K) : WithTop K), some i) else .ok e) =
        .ok (revUpd (sqDist p q) i e) := by unfold revUpd; split <;> rfl
    rw [this, Res.ok_bind]
    exact ih (fun k hk => hL k (by simp [hk])) _

/-- the smallest distance of a list -/
theorem foldl_revUpd (d : Nat → K) (L : List Nat) :
    let e := L.foldl (fun e i => revUpd (d i) i e) noMatch
    ((e = (⊤, none) ∧ L = []) ∨ ∃ i ∈ L, e = (((d i : K) : WithTop K), some i)) ∧ ∀ i ∈ L, e.1 ≤ ((d i : K) : WithTop K) := by
  induction L using List.reverseRecOn with
  | nil => exact ⟨.inl ⟨rfl, rfl⟩, by simp⟩
  | append_singleton L a ih =>
    intro e
    have he : e = revUpd (d a) a (L.foldl (fun e i => revUpd (d i) i e) noMatch) := by simp [e]
    simp only at ih
    set e0 := L.foldl (fun e i => revUpd (d i) i e) noMatch
    rw [he]
    unfold revUpd
    split
    · rename_i h
      refine ⟨.inr ⟨a, by simp, rfl⟩, fun i hi => ?_⟩
      rcases List.mem_append.1 hi with hi | hi
      · exact h.le.trans (ih.2 i hi)
      · rw [List.mem_singleton.1 hi]
    · rename_i h
      refine ⟨?_, fun i hi => ?_⟩
      · rcases ih.1 with ⟨h1, h2⟩ | ⟨i, hi, h1⟩
        · exact absurd (by rw [h1]; exact WithTop.coe_lt_top _) h
        · exact .inr ⟨i, by simp [hi], h1⟩
      · rcases List.mem_append.1 hi with hi | hi
        · exact ih.2 i hi
        · rw [List.mem_singleton.1 hi]; exact not_lt.1 h

theorem search2_spec (sq : K → K) (f : Field2 K) (q : K × K) :
    ∀ (left n : Nat), left + n = max f.nra f.ndec → 1 ≤ left →
    ∃ n', n' < max f.nra f.ndec ∧
      search2 sq f q left n ((seen f f.c1 (f.cell q) (fun _ => true) n).foldl (fun e i => revUpd (distTo f.c1 q i) i e) noMatch) =
        .ok ((seen f f.c1 (f.cell q) (fun _ => true) (n' + 1)).foldl (fun e i => revUpd (distTo f.c1 q i) i e) noMatch) ∧
      (((seen f f.c1 (f.cell q) (fun _ => true) (n' + 1)).foldl (fun e i => revUpd (distTo f.c1 q i) i e) noMatch).1 ≤
        ((f.reached sq q n' : K) : WithTop K) ∨ max f.nra f.ndec ≤ n' + 1) := by
  intro left
  induction left with
  | zero => intro n _ h; omega
  | succ left ih =>
    intro n hsum _
    unfold search2
    rw [scan2 q f.c1 _ (fun j hj => found_get hj), Res.ok_bind]
    have hstep : (f.found f.c1 (f.cell q) n).foldl (fun e i => revUpd (distTo f.c1 q i) i e)
        ((seen f f.c1 (f.cell q) (fun _ => true) n).foldl (fun e i => revUpd (distTo f.c1 q i) i e) noMatch) =
        (seen f f.c1 (f.cell q) (fun _ => true) (n + 1)).foldl (fun e i => revUpd (distTo f.c1 q i) i e) noMatch := by
      rw [seen_succ, List.foldl_append, List.filter_true]
    rw [hstep]
    split
    · exact ih (n + 1) (by omega) (by omega)
    · rename_i h
      refine ⟨n, by omega, rfl, ?_⟩
      by_contra hc
      rw [not_or, not_le, not_le] at hc
      exact h hc

theorem work2_spec {sq : K → K} (hsq0 : ∀ x, 0 ≤ sq x) (hsq : ∀ x, 0 ≤ x → sq x * sq x = x) {f : Field2 K} (hg : Good f)
    {j : Nat} {q : K × K} (hq : f.c2[j]? = some q) :
    ∃ e, search2 sq f q (max f.nra f.ndec) 0 noMatch = .ok e ∧
      (e = (⊤, none) ∨ ∃ (i : Nat) (p : K × K), f.c1[i]? = some p ∧ e = (((sqDist p q : K) : WithTop K), some i)) ∧
      ∀ (k : Nat) (p : K × K), f.c1[k]? = some p →
        (∃ u ∈ f.c1 ++ f.c2, ∃ v ∈ f.c1 ++ f.c2, sqDist p q ≤ (u.1 - v.1) * (u.1 - v.1) ∨ sqDist p q ≤ (u.2 - v.2) * (u.2 - v.2)) →
        e.1 ≤ ((sqDist p q : K) : WithTop K) := by
  have htwo := hg.two
  obtain ⟨n', _, h1, h5⟩ := search2_spec sq f q (max f.nra f.ndec) 0 (by omega) (by omega)
  obtain ⟨g1, g2⟩ := foldl_revUpd (distTo f.c1 q) (seen f f.c1 (f.cell q) (fun _ => true) (n' + 1))
  have hsym : ∀ p, sqDist q p = sqDist p q := fun p => by unfold sqDist; ring
  have hq' : q ∈ f.c1 ++ f.c2 := List.mem_append_right _ (List.mem_of_getElem? hq)
  refine ⟨_, h1, ?_, fun k p hk hside => ?_⟩
  · rcases g1 with h | ⟨i, hi, he⟩
    · exact .inl h.1
    · obtain ⟨_, k, _, hf⟩ := mem_seen.1 hi
      obtain ⟨p, hp⟩ := found_get hf
      exact .inr ⟨i, p, hp, by rw [he]; simp [distTo, hp, hsym]⟩
  · have hp' : p ∈ f.c1 ++ f.c2 := List.mem_append_left _ (List.mem_of_getElem? hk)
    have hd : distTo f.c1 q k = sqDist p q := by simp [distTo, hk, hsym]
    have seenk : (∃ r, r ≤ n' ∧ k ∈ f.found f.c1 (f.cell q) r) → ((seen f f.c1 (f.cell q) (fun _ => true) (n' + 1)).foldl
        (fun e i => revUpd (distTo f.c1 q i) i e) noMatch).1 ≤ ((sqDist p q : K) : WithTop K) := by
      rintro ⟨r, hr, hf⟩
      have := g2 k (mem_seen.2 ⟨rfl, r, by omega, hf⟩)
      rwa [hd] at this
    rcases h5 with h5 | h5
    · by_cases hlt : sqDist p q < f.reached sq q n'
      · exact seenk (found_of_reached hsq0 hsq hg hq' hp' hk (by rw [hsym]; exact hlt))
      · exact h5.trans (WithTop.coe_le_coe.2 (not_lt.1 hlt))
    · refine seenk (found_of_side hsq0 hsq hg hq' hp' hk h5 ?_)
      rw [hsym]; exact hside

theorem mapM_range {β : Type} {n : Nat} {F : Nat → Res β} {P : Nat → β → Prop} (h : ∀ i, i < n → ∃ a, F i = .ok a ∧ P i a) :
    ∃ l : List β, (List.range n).mapM F = .ok l ∧ l.length = n ∧ ∀ i a, l[i]? = some a → P i a := by
  refine ⟨(List.range n).pmap (fun i hi => Classical.choose (h i hi)) (fun i hi => List.mem_range.1 hi), ?_, by simp, fun i a ha => ?_⟩
  · refine Verif.Res.mapM_getElem (by simp) fun i hi hr => ?_
    rw [List.getElem_pmap]
    simp only [List.getElem_range]
    exact (Classical.choose_spec (h i (by simpa using hi))).1
  · obtain ⟨hi, rfl⟩ := List.getElem?_eq_some_iff.1 ha
    rw [List.getElem_pmap]
    simp only [List.getElem_range]
    exact (Classical.choose_spec (h i (by simpa using hi))).2

/-! ### The property -/

/-- what `sqrt` is -/
def IsSqrt (sq : K → K) : Prop := (∀ x, 0 ≤ sq x) ∧ ∀ x, 0 ≤ x → sq x * sq x = x

/-- the distance does not exceed the longer side of the smallest box that holds both catalogues -/
def WithinSide (c1 c2 : List (K × K)) (d2 : K) : Prop :=
  ∃ u ∈ c1 ++ c2, ∃ v ∈ c1 ++ c2, d2 ≤ (u.1 - v.1) * (u.1 - v.1) ∨ d2 ≤ (u.2 - v.2) * (u.2 - v.2)

/-- **C57**, the part that holds, in linear coordinates: whenever the second catalogue has some extent in both directions, the bucket search
ends without error; what it reports are true sources with their true distances in increasing order; and the first neighbour of a source
(both ways, and for every `nth`) has the distance brute force finds, unless that distance exceeds the longer side of the field. -/
theorem C57_bucket_partial {sq : K → K} (hsq : IsSqrt sq) (self mirror : Bool) {nth : Nat} (hn : 1 ≤ nth) {c1 c2 : List (K × K)} (h1 : c1 ≠ [])
    (hx : ∃ a ∈ c2, ∃ b ∈ c2, a.1 ≠ b.1) (hy : ∃ a ∈ c2, ∃ b ∈ c2, a.2 ≠ b.2) :
    ∃ r, bucketMatch sq self mirror nth c1 c2 = .ok r ∧ r.fwd.length = c1.length ∧ r.rev.length = c2.length ∧
      (∀ (i : Nat) p col, c1[i]? = some p → r.fwd[i]? = some col → col.length = nth ∧ col.Pairwise (fun a b => a.1 ≤ b.1) ∧
        (∀ e ∈ col, e = (⊤, none) ∨ ∃ (j : Nat) (q : K × K), c2[j]? = some q ∧ (self = true → i ≠ j) ∧ e = (((sqDist p q : K) : WithTop K), some j)) ∧
        ∀ (k : Nat) (q : K × K), c2[k]? = some q → (self = true → i ≠ k) → WithinSide c1 c2 (sqDist p q) →
          (∀ (l : Nat) (t : K × K), c2[l]? = some t → (self = true → i ≠ l) → sqDist p q ≤ sqDist p t) →
          ∃ e, col.head? = some e ∧ e.1 = ((sqDist p q : K) : WithTop K)) ∧
      (self = false → mirror = true → ∀ (j : Nat) q e, c2[j]? = some q → r.rev[j]? = some e →
        (e = (⊤, none) ∨ ∃ (i : Nat) (p : K × K), c1[i]? = some p ∧ e = (((sqDist p q : K) : WithTop K), some i)) ∧
        ∀ (k : Nat) (p : K × K), c1[k]? = some p → WithinSide c1 c2 (sqDist p q) →
          (∀ (l : Nat) (t : K × K), c1[l]? = some t → sqDist p q ≤ sqDist t q) → e.1 = ((sqDist p q : K) : WithTop K)) := by
  obtain ⟨f, hf, hg, hf1, hf2⟩ := makeField_good hsq.1 hsq.2 h1 hx hy
  have h2 : 1 ≤ c2.length := by obtain ⟨a, ha, _⟩ := hx; exact List.length_pos_of_mem ha
  obtain ⟨hn1, hn2⟩ := lowered hn h2
  have hF := mapM_range (n := c1.length) (F := work1 sq f self (if c2.length < nth then c2.length else nth) nth c1) (P := fun i c => ∀ p, c1[i]? = some p → c.length = nth ∧
      c.Pairwise (fun a b => a.1 ≤ b.1) ∧
      (∀ e ∈ c, e = (⊤, none) ∨ ∃ (j : Nat) (q : K × K), c2[j]? = some q ∧ (self = true → i ≠ j) ∧ e = (((sqDist p q : K) : WithTop K), some j)) ∧
      ∀ (k : Nat) (q : K × K), c2[k]? = some q → (self = true → i ≠ k) → WithinSide c1 c2 (sqDist p q) →
        ∃ e, c.head? = some e ∧ e.1 ≤ ((sqDist p q : K) : WithTop K)) (by
    intro i hi
    obtain ⟨c, hc, a⟩ := work1_spec hsq.1 hsq.2 hg self hn1 hn2 (i := i) (p := c1[i]) (by rw [hf1]; exact List.getElem?_eq_getElem hi)
    refine ⟨c, by simp only [work1, List.getElem?_eq_getElem hi, hc], fun p hp => ?_⟩
    rw [List.getElem?_eq_getElem hi] at hp
    injection hp with hp
    rw [hf1, hf2, hp] at a
    exact a)
  have hR := mapM_range (n := c2.length) (F := work2 sq f (!self && mirror) c2) (P := fun j e => self = false → mirror = true → ∀ q, c2[j]? = some q →
      (e = (⊤, none) ∨ ∃ (i : Nat) (p : K × K), c1[i]? = some p ∧ e = (((sqDist p q : K) : WithTop K), some i)) ∧
      ∀ (k : Nat) (p : K × K), c1[k]? = some p → WithinSide c1 c2 (sqDist p q) → e.1 ≤ ((sqDist p q : K) : WithTop K)) (by
    intro j hj
    obtain ⟨e, he, a⟩ := work2_spec hsq.1 hsq.2 hg (j := j) (q := c2[j]) (by rw [hf2]; exact List.getElem?_eq_getElem hj)
    rw [hf1, hf2] at a
    by_cases hsm : (!self && mirror) = true
    · refine ⟨e, by simp only [work2, List.getElem?_eq_getElem hj, he, hsm, if_true], fun _ _ q hq => ?_⟩
      rw [List.getElem?_eq_getElem hj] at hq
      injection hq with hq
      rw [hq] at a
      exact a
    · refine ⟨noMatch, by simp only [work2, List.getElem?_eq_getElem hj]; rw [if_neg hsm], fun h1 h2 => ?_⟩
      rw [h1, h2] at hsm
      exact absurd rfl hsm)
  obtain ⟨F, hF1, hF2, hF3⟩ := hF
  obtain ⟨R, hR1, hR2, hR3⟩ := hR
  refine ⟨⟨F, R⟩, ?_, hF2, hR2, fun i p col hp hcol => ?_, fun hs hm j q e hq he => ?_⟩
  · unfold bucketMatch
    rw [hf, Res.ok_bind, hg.checkCells, Res.ok_bind]
    rw [hF1, Res.ok_bind, hR1]; rfl
  · obtain ⟨a1, a2, a3, a4⟩ := hF3 i col hcol p hp
    refine ⟨a1, a2, a3, fun k q hk hs hside hmin => ?_⟩
    obtain ⟨e, he1, he2⟩ := a4 k q hk hs hside
    refine ⟨e, he1, le_antisymm he2 ?_⟩
    rcases a3 e (List.mem_of_mem_head? he1) with h | ⟨j, t, hj, hs', h⟩
    · rw [h]; exact le_top
    · rw [h]; exact WithTop.coe_le_coe.2 (hmin j t hj hs')
  · obtain ⟨a1, a2⟩ := hR3 j e he hs hm q hq
    refine ⟨a1, fun k p hk hside hmin => le_antisymm (a2 k p hk hside) ?_⟩
    rcases a1 with h | ⟨i, t, hi, h⟩
    · rw [h]; exact le_top
    · rw [h]; exact WithTop.coe_le_coe.2 (hmin i t hi)

end Verif.Qx
