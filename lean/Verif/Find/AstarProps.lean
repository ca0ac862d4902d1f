import Verif.Find.Astar
/-!
# Property C22
-/
namespace Verif.Find.BMap
open Verif

/-! Spec: length of the shortest 4-neighbour path inside a rectangle is `|dx| + |dy|`. -/

/-- distance between two positions -/
def dist (p q : Nat × Nat) : Nat := (p.1 - q.1) + (q.1 - p.1) + ((p.2 - q.2) + (q.2 - p.2))

def InMap (m : BMap) (p : Nat × Nat) : Prop := p.1 < m.d0 ∧ p.2 < m.d1

/-- `p` and `q` share a side. -/
def Adj (p q : Nat × Nat) : Prop := dist p q = 1

/-- `n` steps between positions of the map sharing a side lead from `p` to `q`. -/
inductive Path (m : BMap) : Nat → (Nat × Nat) → (Nat × Nat) → Prop
  | nil (p) : InMap m p → Path m 0 p p
  | cons {n p q r} : InMap m p → Adj p q → Path m n q r → Path m (n + 1) p r

/-- The spec distance is the length of the shortest path: it is a lower bound... -/
theorem path_ge {m : BMap} {n : Nat} {p q : Nat × Nat} (h : Path m n p q) : dist p q ≤ n := by
  induction h with
  | nil p h => simp [dist]
  | cons h1 h2 h3 ih => unfold Adj dist at *; omega

theorem Path.start {m : BMap} {n : Nat} {p q : Nat × Nat} (h : Path m n p q) : InMap m p := by
  cases h <;> assumption

/-- ... and it is reached. -/
theorem path_exists {m : BMap} (p q : Nat × Nat) (hp : InMap m p) (hq : InMap m q) :
    Path m (dist p q) p q := by
  generalize hd : dist p q = n
  induction n generalizing p with
  | zero =>
    have : p = q := by
      obtain ⟨a, b⟩ := p; obtain ⟨c, d⟩ := q
      simp only [dist] at hd
      rw [Prod.mk.injEq]; omega
    subst this; exact .nil p hp
  | succ n ih =>
    obtain ⟨a, b⟩ := p
    obtain ⟨c, d⟩ := q
    obtain ⟨h1, h2⟩ := hp
    obtain ⟨h3, h4⟩ := hq
    simp only at h1 h2 h3 h4
    simp only [dist] at hd
    rcases Nat.lt_trichotomy a c with h | h | h
    · exact .cons ⟨h1, h2⟩ (q := (a + 1, b)) (by simp only [Adj, dist]; omega)
        (ih _ ⟨by simp only; omega, h2⟩ (by simp only [dist]; omega))
    · rcases Nat.lt_trichotomy b d with h' | h' | h'
      · exact .cons ⟨h1, h2⟩ (q := (a, b + 1)) (by simp only [Adj, dist]; omega)
          (ih _ ⟨h1, by simp only; omega⟩ (by simp only [dist]; omega))
      · omega
      · exact .cons ⟨h1, h2⟩ (q := (a, b - 1)) (by simp only [Adj, dist]; omega)
          (ih _ ⟨h1, by simp only; omega⟩ (by simp only [dist]; omega))
    · exact .cons ⟨h1, h2⟩ (q := (a - 1, b)) (by simp only [Adj, dist]; omega)
        (ih _ ⟨by simp only; omega, h2⟩ (by simp only [dist]; omega))

/-- What the loops guarantee from a level of positions at distance `k` of the start `s`. -/
structure Inv (m : BMap) (s : Nat × Nat) (k : Nat) (o v : List (Nat × Nat)) : Prop where
  vis : ∀ p ∈ v, InMap m p ∧ m.at_ p.1 p.2 = false ∧ dist s p ≤ k + 1
  full : ∀ p, InMap m p → dist s p ≤ k → p ∈ v
  opn : ∀ p, p ∈ o ↔ p ∈ v ∧ dist s p = k + 1

theorem adj_neighbour (p q : Nat × Nat) : Adj p q ↔
    ∃ d ∈ [0, 1, 2, 3], neighbour p.1 p.2 d = ((q.1 : Int), (q.2 : Int)) := by
  obtain ⟨a, b⟩ := p
  obtain ⟨c, e⟩ := q
  simp only [Adj, dist, neighbour, List.mem_cons, List.not_mem_nil, or_false, exists_eq_or_imp,
    exists_eq_left, Prod.mk.injEq]
  simp
  omega

/-- One direction. -/
theorem visitOne_inv {m : BMap} {s : Nat × Nat} {k : Nat} {o v : List (Nat × Nat)} {p : Nat × Nat}
    (h : Inv m s k o v) (hp : dist s p = k) (d : Nat) (hd : d ∈ [0, 1, 2, 3]) :
    match visitOne m (neighbour p.1 p.2 d) o v with
    | .found x y => InMap m (x, y) ∧ m.at_ x y = true ∧ dist s (x, y) = k + 1
    | .more o' v' => Inv m s k o' v' ∧ (∀ q ∈ v, q ∈ v') ∧
        ∀ q, InMap m q → neighbour p.1 p.2 d = ((q.1 : Int), (q.2 : Int)) → q ∈ v' := by
  unfold visitOne
  set t := neighbour p.1 p.2 d with ht
  by_cases h0 : t.1 < 0 ∨ t.2 < 0
  · rw [if_pos h0]
    refine ⟨h, fun q hq => hq, fun q hq he => ?_⟩
    exfalso; rw [he] at h0; simp only at h0; omega
  · rw [if_neg h0]
    have hte : t = (((t.1.toNat : Nat) : Int), ((t.2.toNat : Nat) : Int)) := by
      have h1 : (t.1.toNat : Int) = t.1 := by omega
      have h2 : (t.2.toNat : Int) = t.2 := by omega
      rw [h1, h2]
    simp only
    set x := t.1.toNat with hx
    set y := t.2.toNat with hy
    by_cases hc : m.d0 ≤ x ∨ m.d1 ≤ y ∨ (x, y) ∈ v
    · rw [if_pos hc]
      refine ⟨h, fun q hq => hq, fun q hq he => ?_⟩
      rw [hte, Prod.mk.injEq] at he
      have hqe : (x, y) = q := by
        obtain ⟨a, b⟩ := q; simp only at he; rw [Prod.mk.injEq]; omega
      rcases hc with hc | hc | hc
      · have := hq.1; rw [← hqe] at this; simp only at this; omega
      · have := hq.2; rw [← hqe] at this; simp only at this; omega
      · rw [← hqe]; exact hc
    · rw [if_neg hc]
      push Not at hc
      have hin : InMap m (x, y) := ⟨by simpa using hc.1, by simpa using hc.2.1⟩
      have hadj : Adj p (x, y) := (adj_neighbour p (x, y)).2 ⟨d, hd, by rw [← ht]; exact hte⟩
      have hdist : dist s (x, y) = k + 1 := by
        by_contra hne
        have : dist s (x, y) ≤ k := by
          unfold Adj dist at hadj; unfold dist at hp hne ⊢
          simp only at hadj hne ⊢
          omega
        exact hc.2.2 (h.full _ hin this)
      by_cases hm : m.at_ x y = false
      · rw [if_pos hm]
        refine ⟨⟨?_, ?_, ?_⟩, fun q hq => by simp [hq], fun q hq he => ?_⟩
        · intro q hq
          rcases List.mem_cons.1 hq with rfl | hq
          · exact ⟨hin, hm, by omega⟩
          · exact h.vis q hq
        · intro q hq hqd
          exact List.mem_cons.2 (.inr (h.full q hq hqd))
        · intro q
          rw [List.mem_append, List.mem_singleton, List.mem_cons, h.opn]
          constructor
          · rintro (⟨h1, h2⟩ | rfl)
            · exact ⟨.inr h1, h2⟩
            · exact ⟨.inl rfl, hdist⟩
          · rintro ⟨rfl | h1, h2⟩
            · exact .inr rfl
            · exact .inl ⟨h1, h2⟩
        · rw [hte, Prod.mk.injEq] at he
          have hqe : (x, y) = q := by
            obtain ⟨a, b⟩ := q; simp only at he; rw [Prod.mk.injEq]; omega
          rw [← hqe]; simp
      · rw [if_neg hm]
        exact ⟨hin, by simpa using hm, hdist⟩

theorem dirs_inv {m : BMap} {s : Nat × Nat} {k : Nat} {p : Nat × Nat} (hp : dist s p = k)
    (ds : List Nat) (hds : ∀ d ∈ ds, d ∈ [0, 1, 2, 3]) (o v : List (Nat × Nat)) (h : Inv m s k o v) :
    match dirs m p ds o v with
    | .found x y => InMap m (x, y) ∧ m.at_ x y = true ∧ dist s (x, y) = k + 1
    | .more o' v' => Inv m s k o' v' ∧ (∀ q ∈ v, q ∈ v') ∧
        ∀ d ∈ ds, ∀ q, InMap m q → neighbour p.1 p.2 d = ((q.1 : Int), (q.2 : Int)) → q ∈ v' := by
  induction ds generalizing o v with
  | nil => exact ⟨h, fun q hq => hq, by simp⟩
  | cons d ds ih =>
    have h1 := visitOne_inv h hp d (hds d (by simp))
    unfold dirs
    cases hv : visitOne m (neighbour p.1 p.2 d) o v with
    | found x y => rw [hv] at h1; exact h1
    | more o1 v1 =>
      rw [hv] at h1
      simp only at h1 ⊢
      have h2 := ih (fun d hd => hds d (by simp [hd])) o1 v1 h1.1
      cases hr : dirs m p ds o1 v1 with
      | found x y => rw [hr] at h2; exact h2
      | more o2 v2 =>
        rw [hr] at h2
        simp only at h2 ⊢
        refine ⟨h2.1, fun q hq => h2.2.1 q (h1.2.1 q hq), ?_⟩
        intro d' hd' q hq he
        rcases List.mem_cons.1 hd' with rfl | hd'
        · exact h2.2.1 q (h1.2.2 q hq he)
        · exact h2.2.2 d' hd' q hq he

theorem level_inv {m : BMap} {s : Nat × Nat} {k : Nat} (ps : List (Nat × Nat))
    (hps : ∀ p ∈ ps, dist s p = k) (o v : List (Nat × Nat)) (h : Inv m s k o v) :
    match level m ps o v with
    | .found x y => InMap m (x, y) ∧ m.at_ x y = true ∧ dist s (x, y) = k + 1
    | .more o' v' => Inv m s k o' v' ∧ (∀ q ∈ v, q ∈ v') ∧
        ∀ p ∈ ps, ∀ q, InMap m q → Adj p q → q ∈ v' := by
  induction ps generalizing o v with
  | nil => exact ⟨h, fun q hq => hq, by simp⟩
  | cons p ps ih =>
    have h1 := dirs_inv (hps p (by simp)) [0, 1, 2, 3] (fun _ h => h) o v h
    unfold level
    cases hv : dirs m p [0, 1, 2, 3] o v with
    | found x y => rw [hv] at h1; exact h1
    | more o1 v1 =>
      rw [hv] at h1
      simp only at h1 ⊢
      have h2 := ih (fun p hp => hps p (by simp [hp])) o1 v1 h1.1
      cases hr : level m ps o1 v1 with
      | found x y => rw [hr] at h2; exact h2
      | more o2 v2 =>
        rw [hr] at h2
        simp only at h2 ⊢
        refine ⟨h2.1, fun q hq => h2.2.1 q (h1.2.1 q hq), ?_⟩
        intro p' hp' q hq he
        rcases List.mem_cons.1 hp' with rfl | hp'
        · obtain ⟨d, hd, hne⟩ := (adj_neighbour p' q).1 he
          exact h2.2.1 q (h1.2.2 d hd q hq hne)
        · exact h2.2.2 p' hp' q hq he

/-- State at the top of the `while` loop: everything up to distance `k` was looked at. -/
structure Top (m : BMap) (s : Nat × Nat) (k : Nat) (o v : List (Nat × Nat)) : Prop where
  vis : ∀ p, p ∈ v ↔ InMap m p ∧ dist s p ≤ k
  false_ : ∀ p, InMap m p → dist s p ≤ k → m.at_ p.1 p.2 = false
  opn : ∀ p, p ∈ o ↔ InMap m p ∧ dist s p = k

/-- a position at distance `k+1` has a neighbour at distance `k`, inside -/
theorem pred_exists {m : BMap} {s : Nat × Nat} {k : Nat} (hs : InMap m s) (q : Nat × Nat)
    (hq : InMap m q) (hd : dist s q = k + 1) : ∃ p, InMap m p ∧ dist s p = k ∧ Adj p q := by
  obtain ⟨a, b⟩ := s
  obtain ⟨c, d⟩ := q
  obtain ⟨h1, h2⟩ := hs
  obtain ⟨h3, h4⟩ := hq
  simp only at h1 h2 h3 h4
  simp only [dist] at hd
  rcases Nat.lt_trichotomy a c with h | h | h
  · exact ⟨(c - 1, d), ⟨by simp only; omega, h4⟩, by simp only [dist]; omega, by simp only [Adj, dist]; omega⟩
  · rcases Nat.lt_trichotomy b d with h' | h' | h'
    · exact ⟨(c, d - 1), ⟨h3, by simp only; omega⟩, by simp only [dist]; omega, by simp only [Adj, dist]; omega⟩
    · omega
    · exact ⟨(c, d + 1), ⟨h3, by simp only; omega⟩, by simp only [dist]; omega, by simp only [Adj, dist]; omega⟩
  · exact ⟨(c + 1, d), ⟨by simp only; omega, h4⟩, by simp only [dist]; omega, by simp only [Adj, dist]; omega⟩

/-- nothing at distance `k` means nothing further -/
theorem none_beyond {m : BMap} {s : Nat × Nat} {k : Nat} (hs : InMap m s)
    (h : ∀ p, InMap m p → dist s p ≠ k) (n : Nat) : ∀ p, InMap m p → dist s p ≠ k + n := by
  induction n with
  | zero => exact h
  | succ n ih =>
    intro p hp hd
    obtain ⟨q, hq, hqd, -⟩ := pred_exists hs p hp (k := k + n) (by omega)
    exact ih q hq hqd

/-- the spec of the whole search -/
def IsClosest (m : BMap) (s : Nat × Nat) : Option (Nat × Nat) → Prop
  | none => ∀ p, InMap m p → m.at_ p.1 p.2 = false
  | some q => InMap m q ∧ m.at_ q.1 q.2 = true ∧
      ∀ p, InMap m p → m.at_ p.1 p.2 = true → dist s q ≤ dist s p

theorem search_spec {m : BMap} {s : Nat × Nat} (hs : InMap m s) (n k : Nat) (o v : List (Nat × Nat))
    (h : Top m s k o v) (hn : m.d0 + m.d1 ≤ n + k) :
    ∃ r, search m n o v = .ok r ∧ IsClosest m s r := by
  have hempty : ∀ {k : Nat} {o v : List (Nat × Nat)}, Top m s k o v → o = [] → IsClosest m s none := by
    intro k o v h ho p hp
    by_cases hd : dist s p ≤ k
    · exact h.false_ p hp hd
    · exfalso
      refine none_beyond hs (k := k) (fun q hq hqd => ?_) (dist s p - k) p hp (by omega)
      have := (h.opn q).2 ⟨hq, hqd⟩
      rw [ho] at this; simp at this
  induction n generalizing k o v with
  | zero =>
    have ho : o = [] := by
      rw [List.eq_nil_iff_forall_not_mem]
      intro p hp
      obtain ⟨⟨h1, h2⟩, h3⟩ := (h.opn p).1 hp
      unfold dist at h3
      obtain ⟨h4, h5⟩ := hs
      omega
    rw [ho]
    exact ⟨none, rfl, hempty h ho⟩
  | succ n ih =>
    unfold search
    by_cases ho : o = []
    · rw [if_pos ho]; exact ⟨none, rfl, hempty h ho⟩
    · rw [if_neg ho]
      have hinv : Inv m s k [] v := by
        refine ⟨fun p hp => ?_, fun p hp hd => (h.vis p).2 ⟨hp, hd⟩, fun p => ?_⟩
        · obtain ⟨h1, h2⟩ := (h.vis p).1 hp
          exact ⟨h1, h.false_ p h1 h2, by omega⟩
        · simp only [List.not_mem_nil, false_iff, not_and]
          intro hp
          have := ((h.vis p).1 hp).2
          omega
      have hl := level_inv o (fun p hp => ((h.opn p).1 hp).2) [] v hinv
      cases hr : level m o [] v with
      | found x y =>
        rw [hr] at hl
        refine ⟨_, rfl, hl.1, hl.2.1, fun p hp ht => ?_⟩
        by_contra hc
        have := h.false_ p hp (by rw [hl.2.2] at hc; omega)
        rw [this] at ht; simp at ht
      | more o1 v1 =>
        rw [hr] at hl
        simp only at hl ⊢
        obtain ⟨i1, i2, i3⟩ := hl
        apply ih (k + 1) o1 v1 _ (by omega)
        have hfull : ∀ p, InMap m p → dist s p ≤ k + 1 → p ∈ v1 := by
          intro p hp hd
          by_cases hk : dist s p ≤ k
          · exact i1.full p hp hk
          · obtain ⟨q, hq, hqd, hadj⟩ := pred_exists hs p hp (k := k) (by omega)
            exact i3 q ((h.opn q).2 ⟨hq, hqd⟩) p hp hadj
        refine ⟨fun p => ⟨fun hp => ⟨(i1.vis p hp).1, (i1.vis p hp).2.2⟩, fun hp => hfull p hp.1 hp.2⟩,
          fun p hp hd => (i1.vis p (hfull p hp hd)).2.1, fun p => ?_⟩
        rw [i1.opn]
        constructor
        · rintro ⟨h1, h2⟩; exact ⟨(i1.vis p h1).1, h2⟩
        · rintro ⟨h1, h2⟩; exact ⟨hfull p h1 (by omega), h2⟩

/-- Start position after clamping into the map. -/
def clampPos (m : BMap) (x y : Nat) : Nat × Nat := (min x (m.d0 - 1), min y (m.d1 - 1))

/-- C22: on a non-empty map the search ends; it fails iff no element is true; otherwise it returns
a true element of the map at minimal distance of the (clamped) start. -/
theorem C22_astar_find (m : BMap) (h : m.d0 * m.d1 ≠ 0) (fuel x y : Nat) (hf : m.d0 + m.d1 ≤ fuel) :
    ∃ r, astarFind m fuel x y = .ok r ∧ IsClosest m (clampPos m x y) r := by
  have h0 : m.d0 ≠ 0 := fun hc => h (by simp [hc])
  have h1 : m.d1 ≠ 0 := fun hc => h (by simp [hc])
  unfold astarFind
  rw [Res.check_pos h]
  have ex : (if m.d0 ≤ x then m.d0 - 1 else x) = min x (m.d0 - 1) := by split <;> omega
  have ey : (if m.d1 ≤ y then m.d1 - 1 else y) = min y (m.d1 - 1) := by split <;> omega
  simp only [Res.ok_bind, ex, ey]
  have hs : InMap m (clampPos m x y) := by
    unfold InMap clampPos; simp only; omega
  have hself : ∀ p q : Nat × Nat, dist p q = 0 ↔ q = p := by
    rintro ⟨a, b⟩ ⟨c, d⟩
    rw [Prod.mk.injEq]; simp only [dist]; omega
  by_cases hm : m.at_ (min x (m.d0 - 1)) (min y (m.d1 - 1)) = true
  · rw [if_pos hm]
    refine ⟨_, rfl, hs, hm, fun p _ _ => ?_⟩
    have : dist (clampPos m x y) (min x (m.d0 - 1), min y (m.d1 - 1)) = 0 := (hself _ _).2 rfl
    rw [this]; exact Nat.zero_le _
  · rw [if_neg hm]
    apply search_spec hs fuel 0 _ _ _ (by omega)
    have hone : ∀ p, p ∈ [(min x (m.d0 - 1), min y (m.d1 - 1))] ↔ InMap m p ∧ dist (clampPos m x y) p = 0 := by
      intro p
      rw [hself, List.mem_singleton]
      constructor
      · rintro rfl; exact ⟨hs, rfl⟩
      · exact fun h => h.2
    refine ⟨fun p => ?_, fun p hp hd => ?_, hone⟩
    · rw [hone, Nat.le_zero]
    · have := (hself _ _).1 (Nat.le_zero.1 hd)
      rw [this]; simpa [clampPos] using hm

/-- C22: an empty map is refused. -/
theorem C22_empty (m : BMap) (h : m.d0 * m.d1 = 0) (fuel x y : Nat) : astarFind m fuel x y = .abort := by
  unfold astarFind; rw [Res.check_neg (by simp [h])]; rfl

/-- A 3x4 map with the single true element (2,0), start outside. -/
example : astarFind ⟨3, 4, fun x y => x == 2 && y == 0⟩ 7 9 2 = .ok (some (2, 0)) := by decide
example : IsClosest ⟨2, 2, fun x y => x == 1 && y == 1⟩ (0, 0) (some (1, 1)) := by
  refine ⟨⟨by decide, by decide⟩, rfl, ?_⟩
  rintro ⟨a, b⟩ - h
  simp at h; simp [h.1, h.2]

end Verif.Find.BMap
