import Verif.Math.HullLemmas
/-!
# The two chains of `build_convex_hull`
-/
namespace Verif.Hull
open Verif

variable {K : Type} [LinearOrder K] [Field K] [IsStrictOrderedRing K] {ι : Type} {pt : ι → K × K}

theorem popLoop_neg (t : Nat) (p : ι) : ∀ s : List ι, popLoop (fun i => -pt i) t p s = popLoop pt t p s
  | [] => rfl
  | [_] => rfl
  | a :: b :: s => by
    unfold popLoop
    rw [cross3_neg, popLoop_neg t p (b :: s)]

theorem addPoint_neg (cap t : Nat) (s : List ι) (p : ι) : addPoint (fun i => -pt i) cap t s p = addPoint pt cap t s p := by
  unfold addPoint
  rw [popLoop_neg]

theorem addPoint_base (cap : Nat) (p h : ι) (base s : List ι) :
    addPoint pt (cap + base.length) (base.length + 2) (s ++ h :: base) p = (addPoint pt cap 2 (s ++ [h]) p).map fun r => r ++ base := by
  unfold addPoint
  rw [popLoop_base]
  cases popLoop pt 2 p (s ++ [h]) with
  | ok r =>
    simp only [Res.map, Res.ok_bind, List.length_append]
    by_cases hc : r.length < cap
    · rw [if_pos (by omega), if_pos hc]; rfl
    · rw [if_neg (by omega), if_neg hc]
  | abort => rfl
  | ub => rfl
  | diverge => rfl

theorem popLoop_bottom (p h : ι) : ∀ s : List ι, ∃ s', popLoop pt 2 p (s ++ [h]) = .ok (s' ++ [h])
  | [] => ⟨[], rfl⟩
  | [a] => by
    show ∃ s', (if 2 ≤ ([] : List ι).length + 2 ∧ cross3 (pt h) (pt a) (pt p) ≤ 0 then popLoop pt 2 p [h] else _) = _
    split
    · exact ⟨[], rfl⟩
    · exact ⟨[a], rfl⟩
  | a :: b :: s => by
    show ∃ s', (if 2 ≤ (s ++ [h]).length + 2 ∧ cross3 (pt b) (pt a) (pt p) ≤ 0 then popLoop pt 2 p (b :: s ++ [h]) else _) = _
    split
    · exact popLoop_bottom p h (b :: s)
    · exact ⟨a :: b :: s, rfl⟩

theorem foldlM_base (cap : Nat) (h : ι) (base : List ι) : ∀ (l s : List ι),
    l.foldlM (addPoint pt (cap + base.length) (base.length + 2)) (s ++ h :: base) =
      (l.foldlM (addPoint pt cap 2) (s ++ [h])).map fun r => r ++ base
  | [], s => by simp [Res.map, Res.pure_def]
  | p :: l, s => by
    rw [List.foldlM_cons, List.foldlM_cons, addPoint_base]
    obtain ⟨s', hs⟩ := popLoop_bottom (pt := pt) p h s
    have ha : addPoint pt cap 2 (s ++ [h]) p = if (s' ++ [h]).length < cap then .ok (p :: (s' ++ [h])) else .ub := by
      unfold addPoint
      rw [hs, Res.ok_bind]
    rw [ha]
    by_cases hc : (s' ++ [h]).length < cap
    · rw [if_pos hc]
      have := foldlM_base cap h base l (p :: s')
      show (Res.ok (p :: (s' ++ [h]) ++ base) >>= _) = (Res.ok (p :: (s' ++ [h])) >>= _).map _
      rw [Res.ok_bind, Res.ok_bind]
      simpa using this
    · rw [if_neg hc]; rfl

theorem Edge.split {d c h : ι} : ∀ {s base : List ι}, Edge d c (s ++ h :: base) → Edge d c (s ++ [h]) ∨ Edge d c (h :: base)
  | [], _, he => .inr he
  | [a], _, he => by
    rcases he with he | he
    · exact .inl (.inl he)
    · exact .inr he
  | a :: b :: s, base, he => by
    rcases he with he | he
    · exact .inl (.inl he)
    · exact (Edge.split (s := b :: s) he).imp .inr id

/-- the first vertex is strictly on the left of the edges that do not start there -/
theorem Conv.left_bottom' {z d c : ι} : ∀ {l : List ι}, Conv pt (l ++ [z]) → Edge d c l → 0 < cross3 (pt z) (pt d) (pt c)
  | [], _, he => he.elim
  | [_], _, he => he.elim
  | a :: b :: s, hc, he => by
    rcases he with ⟨rfl, rfl⟩ | he
    · rw [cross3_cr']; exact Conv.left_bottom hc
    · exact Conv.left_bottom' (l := b :: s) (Conv.tail hc) he

theorem Conv.left_top' {a d c : ι} : ∀ {l : List ι}, Conv pt (a :: l) → Edge d c l → 0 < cross3 (pt a) (pt d) (pt c)
  | [], _, he => he.elim
  | b :: s, hc, he => by
    have := Conv.left_top hc he
    have e : cross3 (pt a) (pt d) (pt c) = cr (pt c - pt d) (pt a - pt d) := by simp [cross3, cr]; ring
    rwa [e]

theorem Conv.lt_top {a x : ι} : ∀ {l : List ι}, Conv pt (a :: l) → x ∈ l → lt (pt x) (pt a)
  | [], _, h => by simp at h
  | b :: s, hc, h => by
    rcases List.mem_cons.1 h with rfl | h
    · exact hc.hlt
    · have := lp_add (Conv.lt_top hc.tail h) (lp_lp0 hc.hlt)
      rwa [sub_add_sub_cancel'] at this

theorem Conv.lt_bottom {z x : ι} : ∀ {l : List ι}, Conv pt (l ++ [z]) → x ∈ l → lt (pt z) (pt x)
  | [], _, h => by simp at h
  | [a], hc, h => by
    rw [List.mem_singleton] at h
    subst h; exact hc
  | a :: b :: s, hc, h => by
    rcases List.mem_cons.1 h with rfl | h
    · exact Conv.lt_top (l := b :: s ++ [z]) hc (by simp)
    · exact Conv.lt_bottom (l := b :: s) (Conv.tail hc) h

/-- a turn: three consecutive vertices `c`, `b`, `a` in this order -/
def Turn (c b a : ι) : List ι → Prop
  | x :: y :: z :: s => (a = x ∧ b = y ∧ c = z) ∨ Turn c b a (y :: z :: s)
  | _ => False

theorem Conv.turn {c b a : ι} : ∀ {s : List ι}, Conv pt s → Turn c b a s → 0 < cross3 (pt c) (pt b) (pt a)
  | [], _, h => h.elim
  | [_], _, h => h.elim
  | [_, _], _, h => h.elim
  | x :: y :: z :: s, hc, h => by
    rcases h with ⟨rfl, rfl, rfl⟩ | h
    · exact hc.2.1
    · exact Conv.turn hc.2.2 h

/-- the directions from a point turn left along the list, so the last is on the left of the first (the list goes backwards) -/
theorem fan_total (v : K × K) : ∀ (l : List ι) (a b : ι), (∀ x ∈ b :: (l ++ [a]), lp (pt x - v)) →
    (∀ d c, Edge d c (b :: (l ++ [a])) → 0 < cross3 v (pt d) (pt c)) → 0 < cross3 v (pt a) (pt b)
  | [], a, b, _, he => he a b (.inl ⟨rfl, rfl⟩)
  | x :: l, a, b, hp, he => by
    have h1 := fan_total v l a x (fun y hy => hp y (List.mem_cons_of_mem _ hy)) (fun d c h => he d c (.inr h))
    have h2 := he x b (.inl ⟨rfl, rfl⟩)
    exact slope_trans_left (lp_lp0 (hp a (by simp))) (hp x (by simp)) (hp b (by simp)) h1 h2.le

/-- the result of the two loops: `v :: (U ++ h :: (L ++ [v]))` is the array from its end -/
structure Chains (pt : ι → K × K) (ids : List ι) (v h : ι) (U L : List ι) : Prop where
  low : Inv pt (· ∈ ids) (h :: (L ++ [v]))
  up : Inv (fun i => -pt i) (· ∈ ids) (v :: (U ++ [h]))
  mem : ∀ x ∈ v :: (U ++ h :: (L ++ [v])), x ∈ ids

theorem getLast_cons_snoc {l : List ι} {a b : ι} (h : (a :: l).getLast? = some b) (h2 : l ≠ []) : ∃ m, l = m ++ [b] := by
  obtain ⟨m, x, rfl⟩ := List.eq_nil_or_concat l |>.resolve_left h2
  rw [List.concat_eq_append] at h ⊢
  rw [← List.cons_append, List.getLast?_append] at h
  simp at h
  exact ⟨m, by rw [h]⟩

theorem chain_ge_two {cap : Nat} {l : List ι} {s : List ι} {r : List ι} (hl : l ≠ []) (hs : s ≠ [])
    (h : l.foldlM (addPoint pt cap 2) s = .ok r) : 2 ≤ r.length := by
  obtain ⟨m, p, rfl⟩ := List.eq_nil_or_concat l |>.resolve_left hl
  rw [List.concat_eq_append, List.foldlM_append] at h
  obtain ⟨s1, h1, h2⟩ := Res.bind_eq_ok.1 h
  simp only [List.foldlM_cons, List.foldlM_nil] at h2
  obtain ⟨s2, h3, h4⟩ := Res.bind_eq_ok.1 h2
  have h4 : s2 = r := by injection h4
  subst h4
  have hne : ∀ (l s s1 : List ι), s ≠ [] → l.foldlM (addPoint pt cap 2) s = .ok s1 → s1 ≠ [] := by
    intro l
    induction l with
    | nil => intro s s1 hs h; have : s = s1 := by injection h
             rwa [← this]
    | cons q l ih =>
      intro s s1 _ h
      rw [List.foldlM_cons] at h
      obtain ⟨s2, h3, h4⟩ := Res.bind_eq_ok.1 h
      refine ih s2 s1 ?_ h4
      unfold addPoint at h3
      obtain ⟨s3, _, h5⟩ := Res.bind_eq_ok.1 h3
      split at h5
      · have : q :: s3 = s2 := by injection h5
        rw [← this]; simp
      · cases h5
  have hs1 := hne m s s1 hs h1
  obtain ⟨q, w, rfl⟩ := List.eq_nil_or_concat s1 |>.resolve_left hs1
  rw [List.concat_eq_append] at h3
  obtain ⟨s', e⟩ := popLoop_bottom (pt := pt) p w q
  unfold addPoint at h3
  rw [e, Res.ok_bind] at h3
  split at h3
  · have : p :: (s' ++ [w]) = s2 := by injection h3
    rw [← this]; simp
  · cases h3

theorem build_chains {pts : List (K × K)} {ids : List Nat} (hs : Sorted pts ids) (h2 : 2 ≤ pts.length) :
    ∃ v h U L, build pts ids = .ok (v :: (U ++ h :: (L ++ [v]))).reverse ∧ Chains (fun i => pts.getD i (0, 0)) ids v h U L := by
  obtain ⟨hperm, hsort⟩ := hs
  have hlen : ids.length = pts.length := by simpa using hperm.length_eq
  set pt : Nat → K × K := fun i => pts.getD i (0, 0) with hpt
  have hle : ids.Pairwise fun i j => le (pt i) (pt j) := hsort.imp fun h => le_of_not_ptLess h
  match ids, hlen, hle with
  | [], hlen, _ => simp at hlen; omega
  | v :: rest, hlen, hle =>
    have hrest : rest ≠ [] := by rintro rfl; simp at hlen; omega
    rw [List.pairwise_cons] at hle
    have hlen' : rest.length + 1 = pts.length := by simpa using hlen
    have hI0 : Inv pt (· = v) [v] := ⟨.inl trivial, fun q hq => by rw [hq]; rfl⟩
    obtain ⟨h, s, g1, g2, g3, g4, g5, g6⟩ := chain_spec (cap := 2 * (v :: rest).length) rest v [] (· = v) hI0 rfl hle.2 hle.1
      (by simp; omega)
    have hge := chain_ge_two hrest (by simp) g1
    have hs : s ≠ [] := by rintro rfl; simp at hge
    obtain ⟨L, rfl⟩ := getLast_cons_snoc (by rw [g5]; rfl : (h :: s).getLast? = some v) hs
    -- the second loop
    have hrev : (v :: rest).reverse = h :: (v :: rest).reverse.tail := by
      have : (v :: rest).reverse.head? = some h := by
        rw [List.head?_reverse, g3, List.getLast?_eq_some_getLast (by simp)]
      cases hh : (v :: rest).reverse with
      | nil => simp at hh
      | cons x t => rw [hh] at this; simp at this; rw [this]; rfl
    set R := (v :: rest).reverse.tail with hR
    have hRne : R ≠ [] := by
      intro e
      have := congrArg List.length hrev
      rw [e] at this
      simp at this
      exact hrest this
    have hrl : R.length = rest.length := by
      have := congrArg List.length hrev
      simp at this; omega
    have hrp : (h :: R).Pairwise fun i j => le (-pt i) (-pt j) := by
      rw [← hrev, List.pairwise_reverse]
      have hall : (v :: rest).Pairwise fun i j => le (pt i) (pt j) := List.pairwise_cons.2 hle
      refine hall.imp fun {a b} hab => ?_
      show lp0 (-pt a - -pt b)
      rw [neg_sub_neg]; exact hab
    rw [List.pairwise_cons] at hrp
    have hI1 : Inv (fun i => -pt i) (· = h) [h] := ⟨.inl trivial, fun q hq => by rw [hq]; rfl⟩
    obtain ⟨cap', hcap'⟩ : ∃ cap', 2 * (v :: rest).length = cap' + (L ++ [v]).length := ⟨2 * (v :: rest).length - (L ++ [v]).length, by
      simp at g4 ⊢; omega⟩
    obtain ⟨v', s', k1, k2, k3, k4, k5, k6⟩ := chain_spec (pt := fun i => -pt i) (cap := cap') R h [] (· = h) hI1 rfl hrp.2 hrp.1
      (by simp at g4 hcap' ⊢; omega)
    have hv : v' = v := by
      rw [k3]
      have : (h :: R).getLast? = some v := by rw [← hrev, List.getLast?_reverse]; rfl
      rw [List.getLast?_eq_some_getLast (by simp)] at this
      injection this
    subst hv
    have hge' := chain_ge_two hRne (by simp) k1
    have hs' : s' ≠ [] := by rintro rfl; simp at hge'
    obtain ⟨U, rfl⟩ := getLast_cons_snoc (by rw [k5]; rfl : (v' :: s').getLast? = some h) hs'
    refine ⟨v', h, U, L, ?_, ?_, ?_, ?_⟩
    · unfold build
      simp only
      have e1 : (v' :: rest).foldlM (addPoint pt (2 * (v' :: rest).length) 2) [] = .ok (h :: (L ++ [v'])) := by
        rw [List.foldlM_cons]
        have : addPoint pt (2 * (v' :: rest).length) 2 [] v' = .ok [v'] := by
          unfold addPoint
          rw [popLoop, if_neg (by omega), Res.ok_bind, if_pos (by simp)]
        rw [this, Res.ok_bind, g1]
      rw [e1, Res.ok_bind, if_neg (by simp)]
      have e2 : R.foldlM (addPoint pt (2 * (v' :: rest).length) ((h :: (L ++ [v'])).length + 1)) (h :: (L ++ [v'])) =
          .ok (v' :: (U ++ [h]) ++ (L ++ [v'])) := by
        have := foldlM_base (pt := pt) cap' h (L ++ [v']) R []
        rw [hcap', List.length_cons]
        rw [List.nil_append, List.nil_append] at this
        rw [this]
        have e3 : R.foldlM (addPoint pt cap' 2) [h] = .ok (v' :: (U ++ [h])) := by
          rw [← k1]
          congr 1
          funext s p
          rw [addPoint_neg]
        rw [e3]; rfl
      rw [e2, Res.ok_bind]
      simp
    · exact ⟨g2.1, fun q hq => g2.2 q (by rcases List.mem_cons.1 hq with h | h; exacts [.inl h, .inr h])⟩
    · refine ⟨k2.1, fun q hq => k2.2 q ?_⟩
      have hq : q ∈ (v' :: rest).reverse := List.mem_reverse.2 hq
      rw [hrev] at hq
      rcases List.mem_cons.1 hq with h | h; exacts [.inl h, .inr h]
    · intro x hx
      have c1 : ∀ y ∈ h :: (L ++ [v']), y ∈ v' :: rest := fun y hy => by
        rcases g6 y hy with h | h
        · rw [List.mem_singleton.1 h]; simp
        · exact List.mem_cons_of_mem _ h
      have c2 : ∀ y ∈ v' :: (U ++ [h]), y ∈ v' :: rest := fun y hy => by
        rw [← List.mem_reverse, hrev]
        rcases k6 y hy with h | h
        · rw [List.mem_singleton.1 h]; simp
        · exact List.mem_cons_of_mem _ h
      have : x ∈ v' :: (U ++ [h]) ∨ x ∈ h :: (L ++ [v']) := by
        simp only [List.mem_cons, List.mem_append, List.mem_singleton] at hx ⊢; tauto
      rcases this with h | h
      exacts [c2 x h, c1 x h]

end Verif.Hull
