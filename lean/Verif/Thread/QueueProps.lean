import Verif.Thread.QueueInv
/-!
# Property C47: `lock_free_queue` is a safe FIFO for one producer and one consumer

All theorems quantify over every state reachable under every interleaving of every sequence of
`push`, `pop`, `size` (from either thread) and, when no call is in progress, `clear`.
-/
namespace Verif.Thread.Queue
variable {T : Type}

/-- Memory safety: no step of either thread ever dereferences or deletes freed or null memory. -/
theorem C47_no_fault {s : State T} (h : Reach T s) :
    (∀ c, pstep s c ≠ .fault) ∧ (∀ c, cstep s c ≠ .fault) :=
  ⟨fun c => (pstep_good (reach_good h) c).1, fun c => (cstep_good (reach_good h) c).1⟩

/-- FIFO: at every moment the values popped so far are, in order, a prefix of the values pushed. -/
theorem C47_fifo {s : State T} (h : Reach T s) : s.popped <+: s.pushed.map some := by
  obtain ⟨old, live, vals, pops, e, hi⟩ := reach_good h
  rw [hi.popped, hi.pushed, List.map_append]
  exact List.prefix_append _ _

/-- `pop` fails exactly when every value pushed so far has been popped. -/
theorem C47_pop_false_iff {s : State T} (h : Reach T s) (hc : s.cp = .test) :
    (∀ t, cstep s .go = .ok t → (t.cp = .idle ↔ s.popped.length = s.pushed.length)) := by
  obtain ⟨old, live, vals, pops, e, hi⟩ := reach_good h
  intro t ht
  simp only [cstep, hc, R.ok.injEq] at ht
  subst ht
  have hl := hi.last
  rw [getLast?_append_cons'] at hl
  have key : s.dummy = s.last ↔ live = [] := by
    constructor
    · intro heq
      rcases List.eq_nil_or_concat live with h0 | ⟨m, z, rfl⟩
      · exact h0
      · exfalso
        rw [List.concat_eq_append, ← List.cons_append, List.getLast?_append] at hl
        simp at hl
        have := (List.nodup_append.1 hi.nodup).2.1
        rw [List.nodup_cons] at this
        exact this.1 (by rw [heq, ← hl]; simp)
    · rintro rfl; simpa using hl
  rw [hi.popped, hi.pushed]
  simp only [List.length_map, List.length_append, hi.len]
  by_cases hd : s.dummy = s.last
  · simp [hd, key.1 hd]
  · have : live ≠ [] := fun h0 => hd (key.2 h0)
    have : 0 < live.length := List.length_pos_iff.2 this
    simp [hd]; omega

/-- A successful `pop` delivers exactly the oldest value not yet popped. -/
theorem C47_pop_value {s t : State T} (h : Reach T s) (v : Option T) (a : Addr)
    (hc : s.cp = .advance v a) (ht : cstep s .go = .ok t) :
    t.popped = s.popped ++ [v] ∧ v = s.pushed[s.popped.length]? ∧ v ≠ none := by
  obtain ⟨old, live, vals, pops, e, hi⟩ := reach_good h
  have hcons := hi.cons
  rw [hc] at hcons
  obtain ⟨l, x, vs, rfl, rfl, rfl, hd⟩ := hcons
  simp only [cstep, hc, R.ok.injEq] at ht
  subst ht
  refine ⟨rfl, ?_, by simp⟩
  rw [hi.popped, hi.pushed]; simp

/-- `size()` (from either thread) returns the number of stored elements at the time it started. -/
theorem C47_size {s : State T} (h : Reach T s) : ∀ p ∈ s.sizes, p.1 = p.2 := by
  obtain ⟨old, live, vals, pops, e, hi⟩ := reach_good h
  exact hi.sizes

/-- Data-race freedom: no plain location is about to be written by one thread and accessed by the
other. -/
theorem C47_race_free {s : State T} (h : Reach T s) (l : Loc) :
    ¬ (l ∈ pWrites s ∧ (l ∈ cReads s ∨ l ∈ cWrites s)) ∧
    ¬ (l ∈ cWrites s ∧ (l ∈ pReads s ∨ l ∈ pWrites s)) := by
  obtain ⟨old, live, vals, pops, e, hi⟩ := reach_good h
  have hprod := hi.prod
  have hcons := hi.cons
  have hlast := hi.last
  rw [getLast?_append_cons'] at hlast
  have hnd := (List.nodup_append.1 hi.nodup).2.1
  -- addresses the consumer may touch are stored nodes; `next` fields read by it are not the last one
  have cn : ∀ a, (.next a ∈ cReads s ∨ .next a ∈ cWrites s) →
      a ∈ s.dummy :: live ∧ a ≠ s.last := by
    intro a ha
    have lastne : ∀ p q b, s.dummy :: live = p ++ a :: b :: q → a ≠ s.last := by
      intro p q b hpq
      obtain ⟨r, hr⟩ := mem_of_getLast? hlast
      rintro rfl
      rw [hpq] at hlast hnd
      rw [getLast?_append_cons'] at hlast
      have h1 := (List.nodup_append.1 hnd).2.1
      rw [List.nodup_cons] at h1
      apply h1.1
      rw [List.getLast?_cons_cons] at hlast
      exact List.mem_of_getLast? hlast
    cases hcp : s.cp with
    | idle => simp [cReads, cWrites, hcp] at ha
    | test => simp [cReads, cWrites, hcp] at ha
    | moveOut b => simp [cReads, cWrites, hcp] at ha
    | advance t b => simp [cReads, cWrites, hcp] at ha
    | readNext =>
      simp [cReads, cWrites, hcp] at ha; subst ha
      rw [hcp] at hcons
      obtain ⟨b, q, rfl⟩ := List.exists_cons_of_ne_nil hcons.2
      exact ⟨by simp, lastne [] q b rfl⟩
    | readNext2 t =>
      simp [cReads, cWrites, hcp] at ha; subst ha
      rw [hcp] at hcons
      obtain ⟨b, q, v, vs, rfl, -⟩ := hcons
      exact ⟨by simp, lastne [] q b rfl⟩
    | size tmp stop n snap =>
      rw [hcp] at hcons
      obtain ⟨hd, pre, mid, post, h1, h2, h3⟩ := hcons
      by_cases hts : tmp = stop
      · simp [cReads, cWrites, hcp, hts] at ha
      · simp [cReads, cWrites, hcp, hts] at ha; subst ha
        refine ⟨by rw [h1]; simp, ?_⟩
        cases mid with
        | nil => simp at h2; exact absurd h2 hts
        | cons b mid => exact lastne pre (mid ++ post) b (by rw [h1]; simp)
  have cd : ∀ a, (.data a ∈ cReads s ∨ .data a ∈ cWrites s) → a ∈ live := by
    intro a ha
    cases hcp : s.cp with
    | moveOut b =>
      simp [cReads, cWrites, hcp] at ha; subst ha
      rw [hcp] at hcons
      exact List.mem_of_mem_head? hcons.2
    | size tmp stop n snap =>
      by_cases hts : tmp = stop <;> simp [cReads, cWrites, hcp, hts] at ha
    | idle => simp [cReads, cWrites, hcp] at ha
    | test => simp [cReads, cWrites, hcp] at ha
    | readNext => simp [cReads, cWrites, hcp] at ha
    | readNext2 t => simp [cReads, cWrites, hcp] at ha
    | advance t b => simp [cReads, cWrites, hcp] at ha
  constructor
  · rintro ⟨hw, hr⟩
    cases hpp : s.pp with
    | link x a =>
      simp [pWrites, hpp] at hw; subst hw
      exact (cn _ hr).2 rfl
    | free t =>
      rw [hpp] at hprod
      simp [pWrites, hpp] at hw
      rcases hw with rfl | rfl
      · exact hprod.2.1 (List.mem_append_right _ (cn _ hr).1)
      · exact hprod.2.1 (List.mem_append_right _ (List.mem_cons_of_mem _ (cd _ hr)))
    | idle => simp [pWrites, hpp] at hw
    | alloc x => simp [pWrites, hpp] at hw
    | readLast x => simp [pWrites, hpp] at hw
    | publish x a => simp [pWrites, hpp] at hw
    | loop => simp [pWrites, hpp] at hw
    | unlink => simp [pWrites, hpp] at hw
    | size tmp stop n snap => simp [pWrites, hpp] at hw
  · rintro ⟨hw, hr⟩
    cases l with
    | next a => unfold cWrites at hw; split at hw <;> simp at hw
    | data a =>
      have hm := cd a (.inr hw)
      rcases hr with hr | hr
      · unfold pReads at hr
        split at hr
        · simp at hr
        · simp at hr
        · split at hr <;> simp at hr
        · simp at hr
      · unfold pWrites at hr
        split at hr
        · simp at hr
        · rename_i t hpp
          rw [hpp] at hprod
          simp at hr; subst hr
          exact hprod.2.1 (List.mem_append_right _ (List.mem_cons_of_mem _ hm))
        · simp at hr

/-- Destruction of an idle queue frees every node exactly once: it runs without fault and leaves
nothing allocated. -/
theorem C47_destroy {s : State T} (h : Reach T s) (hp : s.pp = .idle) :
    ∃ h', Destroy s.heap (some s.first) h' ∧ ∀ a, h' a = none := by
  obtain ⟨old, live, vals, pops, e, hi⟩ := reach_good h
  have prod := hi.prod
  rw [hp] at prod
  obtain ⟨rfl, hex⟩ := prod
  obtain ⟨f, l, hl⟩ : ∃ f l, old ++ s.dummy :: live = f :: l := by
    cases old with
    | nil => exact ⟨_, _, rfl⟩
    | cons f o => exact ⟨_, _, rfl⟩
  have hf := hi.first
  have hn := hi.nodup
  have hc := hi.chain
  rw [hl] at hf hn hc hex
  simp at hf; subst hf
  exact destroy_spec l s.heap _ hn hc hex

/-- `clear()` on an idle queue never faults, and afterwards the queue is empty: its result is again
a reachable state with empty histories, so all theorems above apply to it. -/
theorem C47_clear {s : State T} (h : Reach T s) (hp : s.pp = .idle) (hc : s.cp = .idle) :
    ∃ t, Clear s t ∧ Reach T t ∧ t.pushed = [] ∧ t.popped = [] := by
  obtain ⟨old, live, vals, pops, e, hi⟩ := reach_good h
  have prod := hi.prod
  rw [hp] at prod
  obtain ⟨rfl, hex⟩ := prod
  obtain ⟨h1, f1, g⟩ := freeUntil_spec s.dummy live none old s.heap s.first hi.nodup hi.first hi.chain hex
  obtain ⟨c1, c2⟩ := g h1 f1
  have hnd := (List.nodup_append.1 hi.nodup).2.1
  obtain ⟨h2, z, f2, g2⟩ := freeToLast_spec live h1 s.dummy hnd c1 c2
  have hcl := Clear.mk s h1 h2 z hp hc f1 f2
  exact ⟨_, hcl, .clear h hcl, rfl, rfl⟩

/-! Non-vacuity: a state is reachable in which two values were pushed, one popped, a node was freed
and its address reused. -/

/-- run a list of producer (`inl`) / consumer (`inr`) choices -/
def run (s : State T) : List (PChoice T ⊕ CChoice) → Option (State T)
  | [] => some s
  | .inl c :: l => match pstep s c with | .ok t => run t l | _ => none
  | .inr c :: l => match cstep s c with | .ok t => run t l | _ => none

theorem run_reach {s t : State T} (h : Reach T s) (l : List (PChoice T ⊕ CChoice))
    (hr : run s l = some t) : Reach T t := by
  induction l generalizing s with
  | nil => simp [run] at hr; exact hr ▸ h
  | cons c l ih =>
    cases c with
    | inl c =>
      simp only [run] at hr
      split at hr
      · rename_i u hu; exact ih (.prod c h hu) hr
      · simp at hr
    | inr c =>
      simp only [run] at hr
      split at hr
      · rename_i u hu; exact ih (.cons c h hu) hr
      · simp at hr

def demo : List (PChoice Nat ⊕ CChoice) :=
  [.inl (.push 10), .inl (.addr 1), .inl .go, .inr .pop, .inl .go, .inl .go, .inr .go, .inl .go,
   .inr .go, .inr .go, .inr .go, .inr .go,                       -- popped 10, dummy = 1
   .inl (.push 20), .inl (.addr 2), .inl .go, .inl .go, .inl .go, .inl .go, .inl .go, .inl .go,
   .inl .go,                                                     -- node 0 deleted
   .inl (.push 30), .inl (.addr 0), .inl .go, .inl .go, .inl .go, .inl .go]  -- address 0 reused

example : ∃ s, Reach Nat s ∧ s.pushed = [10, 20, 30] ∧ s.popped = [some 10] ∧ s.last = 0 := by
  have hr : (run (init 0) demo).map (fun s => (s.pushed, s.popped, s.last)) =
      some ([10, 20, 30], [some 10], 0) := by decide +kernel
  cases h : run (init 0 : State Nat) demo with
  | none => rw [h] at hr; simp at hr
  | some s =>
    rw [h] at hr
    simp at hr
    exact ⟨s, run_reach (.init 0) demo h, hr.1, hr.2.1, hr.2.2⟩

end Verif.Thread.Queue
