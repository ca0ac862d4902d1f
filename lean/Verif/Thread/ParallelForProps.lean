import Verif.Thread.ParallelFor
import Mathlib.Data.List.Perm.Basic
import Mathlib.Data.List.Nodup
/-!
# Property C50: `parallel_for::execute` runs every index exactly once

Specification: the list of indices on which `f` was called is a permutation of
`[first, first+1, ..., last-1]`, for every schedule.
-/
namespace Verif.Thread.ParallelFor
open Verif

/-- The intended set of calls, each exactly once. -/
def wanted (first last : Nat) : List Int := (List.range' first (last - first)).map Int.ofNat

/-- Indices handed out but not run yet. -/
def pending (ws : List Worker) : List Int := (ws.map (·.todo)).flatten

structure Inv (s : State) : Prop where
  di_pos : 0 < s.di
  le : s.i0 ≤ s.n
  next : s.i0 < s.n → s.i0 < s.i1 ∧ s.i1 ≤ s.n
  perm : (s.log ++ pending s.workers).Perm (wanted 0 s.i0)
  fin : ∀ w ∈ s.workers, w.done = true → s.i0 = s.n ∧ w.todo = []

theorem pending_append (a b : List Worker) : pending (a ++ b) = pending a ++ pending b := by
  simp [pending]

theorem pending_cons (w : Worker) (b : List Worker) : pending (w :: b) = w.todo ++ pending b := by
  simp [pending]

theorem wanted_split (a b : Nat) (h : a ≤ b) :
    wanted 0 b = wanted 0 a ++ Core.range2 a b := by
  rw [Core.range2_asc _ _ (by omega)]
  have e : ((b : Int) - a).toNat = b - a := by omega
  rw [e]
  unfold wanted
  simp only [Nat.sub_zero, ← List.range_eq_range']
  have : b = a + (b - a) := by omega
  conv => lhs; rw [this, List.range_add, List.map_append]
  simp [List.map_map, Function.comp_def]

theorem inv_step {s t : State} (hi : Inv s) (h : Step s t) : Inv t := by
  cases h with
  | query a b hw =>
    by_cases hc : s.i0 = s.n
    · simp only [query, if_pos hc]
      refine ⟨hi.di_pos, hi.le, hi.next, ?_, ?_⟩
      · have := hi.perm
        rw [hw, pending_append, pending_cons] at this
        simpa [pending_append, pending_cons] using this
      · intro w hm hd
        rcases List.mem_append.1 hm with hm | hm
        · exact hi.fin w (by rw [hw]; simp [hm]) hd
        · rcases List.mem_cons.1 hm with rfl | hm
          · exact ⟨hc, rfl⟩
          · exact hi.fin w (by rw [hw]; simp [hm]) hd
    · have hlt : s.i0 < s.n := by have := hi.le; omega
      obtain ⟨h1, h2⟩ := hi.next hlt
      simp only [query, hc, if_false]
      refine ⟨hi.di_pos, h2, ?_, ?_, ?_⟩
      · intro h3
        have := hi.di_pos
        simp only at h3 ⊢
        split <;> constructor <;> omega
      · have hp := hi.perm
        rw [hw, pending_append, pending_cons] at hp
        simp only [List.nil_append] at hp
        simp only [pending_append, pending_cons]
        rw [wanted_split _ _ (Nat.le_of_lt h1)]
        refine List.Perm.trans ?_ (hp.append_right _)
        simp only [List.append_assoc]
        refine List.Perm.append_left _ (List.Perm.append_left _ ?_)
        exact List.perm_append_comm
      · intro w hm hd
        exfalso
        have : ∀ w ∈ s.workers, w.done = true → False := fun w hm hd =>
          hc (hi.fin w hm hd).1
        rcases List.mem_append.1 hm with hm | hm
        · exact this w (by rw [hw]; simp [hm]) hd
        · rcases List.mem_cons.1 hm with rfl | hm
          · simp at hd
          · exact this w (by rw [hw]; simp [hm]) hd
  | call a b i is hw =>
    refine ⟨hi.di_pos, hi.le, hi.next, ?_, ?_⟩
    · have hp := hi.perm
      rw [hw, pending_append, pending_cons] at hp
      simp only [pending_append, pending_cons]
      refine List.Perm.trans ?_ hp
      simp only [List.append_assoc, List.cons_append, List.nil_append]
      refine List.Perm.append_left _ ?_
      exact List.perm_middle.symm
    · intro w hm hd
      rcases List.mem_append.1 hm with hm | hm
      · exact hi.fin w (by rw [hw]; simp [hm]) hd
      · rcases List.mem_cons.1 hm with rfl | hm
        · simp at hd
        · exact hi.fin w (by rw [hw]; simp [hm]) hd

theorem inv_steps {k : Nat} {s t : State} (h : Steps k s t) (hi : Inv s) : Inv t := by
  induction h with
  | refl => exact hi
  | tail _ hs ih => exact inv_step (ih hi) hs

theorem nworkers_step {s t : State} (h : Step s t) : t.workers.length = s.workers.length ∧ t.n = s.n := by
  cases h with
  | query a b hw => rw [hw]; simp only [query]; split <;> simp
  | call a b i is hw => rw [hw]; simp

theorem nworkers_steps {k : Nat} {s t : State} (h : Steps k s t) :
    t.workers.length = s.workers.length ∧ t.n = s.n := by
  induction h with
  | refl => simp
  | tail _ hs ih => have := nworkers_step hs; omega

theorem inv_start (w c n : Nat) (hch : 2 ≤ nchunk w c n) : Inv (start w c 0 n) := by
  refine ⟨by simp [start], by simp [start], ?_, ?_, ?_⟩
  · simp only [start, Nat.sub_zero, Nat.zero_add]
    intro hn
    refine ⟨Nat.succ_pos _, ?_⟩
    have : n / nchunk w c n ≤ n / 2 := Nat.div_le_div_left hch (by omega)
    omega
  · simp only [start, List.nil_append]
    have : pending (List.replicate w {}) = [] := by
      simp [pending]
    rw [this]; simp [wanted]
  · intro x hx hd
    simp only [start] at hx
    rw [List.eq_of_mem_replicate hx] at hd
    simp at hd

theorem inv_start_zero (w c : Nat) : Inv (start w c 0 0) := by
  refine ⟨by simp [start], by simp [start], ?_, ?_, ?_⟩
  · simp [start]
  · simp only [start, List.nil_append]
    have : pending (List.replicate w {}) = [] := by simp [pending]
    rw [this]; simp [wanted]
  · intro x hx hd
    simp only [start] at hx
    rw [List.eq_of_mem_replicate hx] at hd
    simp at hd

instance (s : State) : Decidable s.Joined := by unfold State.Joined; infer_instance

/-- Full statement of C50 as a predicate on the parameters: every execution that has joined all
workers has called `f` exactly once on each index of `[first,last)` and on nothing else. -/
def Correct (w chunkSize first last : Nat) : Prop :=
  ∀ k s, Steps k (start w chunkSize first last) s → s.Joined → s.log.Perm (wanted first last)

/-- C50, proved part: ranges starting at 0 that are cut in at least two chunks (at least two
workers, or a chunk size below half the range), and empty ranges, under every schedule.
Missing: `first > 0` and a single chunk, where the code is wrong (refutations below). -/
theorem C50_once_partial (w c n : Nat) (hw : 1 ≤ w) (hch : 2 ≤ nchunk w c n ∨ n = 0) :
    Correct w c 0 n := by
  intro k s hs hj
  have hi : Inv s := by
    rcases hch with h | rfl
    · exact inv_steps hs (inv_start w c n h)
    · exact inv_steps hs (inv_start_zero w c)
  obtain ⟨hl, hn⟩ := nworkers_steps hs
  simp only [start, List.length_replicate, Nat.sub_zero] at hl hn
  have hpend : pending s.workers = [] := by
    simp only [pending, List.flatten_eq_nil_iff, List.mem_map]
    rintro l ⟨w', hw', rfl⟩
    exact (hi.fin w' hw' (hj w' hw')).2
  have h0 : s.i0 = s.n := by
    obtain ⟨x, xs, hx⟩ : ∃ x xs, s.workers = x :: xs := by
      cases hws : s.workers with
      | nil => simp [hws] at hl; omega
      | cons x xs => exact ⟨x, xs, rfl⟩
    exact (hi.fin x (by simp [hx]) (hj x (by simp [hx]))).1
  have := hi.perm
  rwa [hpend, List.append_nil, h0, hn] at this

example : 2 ≤ nchunk 4 0 1000 ∧ 2 ≤ nchunk 1 10 1000 := by decide

/-- No index outside the range is ever run and none is run twice, at any moment of any schedule
(not only at the end). -/
theorem C50_always_partial (w c n : Nat) (hch : 2 ≤ nchunk w c n) (k : Nat) (s : State)
    (hs : Steps k (start w c 0 n) s) :
    s.log.Nodup ∧ ∀ i ∈ s.log, 0 ≤ i ∧ i < n := by
  have hi := inv_steps hs (inv_start w c n hch)
  have hn := (nworkers_steps hs).2
  simp only [start, Nat.sub_zero] at hn
  have hnd : (wanted 0 s.i0).Nodup := by
    unfold wanted
    refine List.Nodup.map (fun a b h => by simpa using h) ?_
    exact List.nodup_range'
  have hnd2 := hi.perm.nodup_iff.2 hnd
  refine ⟨(List.nodup_append.1 hnd2).1, fun i him => ?_⟩
  have hm := hi.perm.mem_iff.1 (List.mem_append_left _ him)
  simp only [wanted, List.mem_map, List.mem_range'_1] at hm
  obtain ⟨j, hj, rfl⟩ := hm
  have := hi.le
  simp only [Int.ofNat_eq_natCast]
  omega

/-- Measure of the remaining work. -/
def measure (s : State) : Nat :=
  (pending s.workers).length + 2 * (s.n - s.i0) + s.workers.countP (fun w => !w.done)

/-- Every schedule terminates: an execution has at most `2 n + w` steps, and as long as some worker
has not returned there is a possible step. -/
theorem C50_terminates_partial (w c n : Nat) (hch : 2 ≤ nchunk w c n) :
    (∀ k s, Steps k (start w c 0 n) s → k ≤ 2 * n + w) ∧
    (∀ k s, Steps k (start w c 0 n) s → ¬ s.Joined → ∃ t, Step s t) := by
  constructor
  · have key : ∀ k s t, Steps k s t → Inv s → k + measure t ≤ measure s := by
      intro k s t h hi
      induction h with
      | refl => simp
      | @tail k s t u h1 h2 ih =>
        have hit := inv_steps h1 hi
        suffices measure u < measure t by have := ih hi; omega
        cases h2 with
        | query a b hw =>
          by_cases hc : t.i0 = t.n
          · simp only [query, if_pos hc, measure, hw, pending_append, pending_cons,
              List.countP_append, List.countP_cons]
            simp
          · have hlt : t.i0 < t.n := by have := hit.le; omega
            obtain ⟨h3, h4⟩ := hit.next hlt
            simp only [query, hc, if_false, measure, hw, pending_append, pending_cons,
              List.countP_append, List.countP_cons, List.length_append]
            rw [Core.range2_asc _ _ (by omega)]
            simp only [List.length_map, List.length_range, List.length_nil]
            omega
        | call a b i is hw =>
          simp only [measure, hw, pending_append, pending_cons, List.countP_append,
            List.countP_cons, List.length_append, List.length_cons]
          omega
    intro k s hs
    have := key k _ s hs (inv_start w c n hch)
    have h2 : measure (start w c 0 n) = 2 * n + w := by
      simp [measure, start, pending, List.countP_replicate]
    omega
  · intro k s hs hj
    have hi := inv_steps hs (inv_start w c n hch)
    simp only [State.Joined, not_forall] at hj
    obtain ⟨x, hx, hd⟩ := hj
    obtain ⟨a, b, hab⟩ := List.append_of_mem hx
    have hd' : x.done = false := by simpa using hd
    cases x with
    | mk todo dn =>
      simp only at hd'
      subst hd'
      cases todo with
      | nil => exact ⟨_, Step.query s a b hab⟩
      | cons i is => exact ⟨_, Step.call s a b i is hab⟩

/-- The single-threaded path is right for every range. -/
theorem C50_sequential (first last : Nat) (h : first ≤ last) :
    sequential first last = wanted first last := by
  unfold sequential wanted
  rw [Core.range2_asc _ _ (by omega)]
  have : ((last : Int) - first).toNat = last - first := by omega
  rw [this, List.range'_eq_map_range, List.map_map]
  apply List.map_congr_left
  intro k _; simp

/-! ### Refutations: the full statement is false -/

/-- run the first worker for `k` steps (executable, used to exhibit schedules) -/
def runFirst : Nat → State → State
  | 0, s => s
  | k + 1, s =>
    match s.workers with
    | ⟨[], false⟩ :: b => runFirst k { (query s).1 with workers := (query s).2 :: b }
    | ⟨i :: is, false⟩ :: b => runFirst k { s with workers := ⟨is, false⟩ :: b, log := s.log ++ [i] }
    | _ => s

theorem runFirst_steps (k : Nat) (s : State) : ∃ j, Steps j s (runFirst k s) := by
  suffices ∀ k s0 s, (∃ j, Steps j s0 s) → ∃ j, Steps j s0 (runFirst k s) from
    this k s s ⟨0, .refl s⟩
  intro k
  induction k with
  | zero => intro s0 s h; exact h
  | succ k ih =>
    intro s0 s ⟨j, h⟩
    unfold runFirst
    split
    · rename_i b hb
      exact ih s0 _ ⟨j + 1, .tail h (Step.query s [] b hb)⟩
    · rename_i i is b hb
      exact ih s0 _ ⟨j + 1, .tail h (Step.call s [] b i is hb)⟩
    · exact ⟨j, h⟩

/-- Finding: with one worker, `execute(f, 0, 3)` also calls `f(3)` and `f(4)`. -/
theorem C50_single_worker_refuted : ¬ Correct 1 0 0 3 := by
  intro h
  obtain ⟨j, hj⟩ := runFirst_steps 20 (start 1 0 0 3)
  have := h j _ hj (by decide +kernel)
  revert this
  have e : (runFirst 20 (start 1 0 0 3)).log = [0, 1, 2, 3, 4] := by decide +kernel
  rw [e]
  intro hp
  have := hp.length_eq
  simp [wanted] at this

/-- Finding: with two workers, `execute(f, 10, 20)` returns without calling `f` at all. -/
theorem C50_offset_refuted : ¬ Correct 2 0 10 20 := by
  intro h
  have s1 : Step (start 2 0 10 20) _ := Step.query (start 2 0 10 20) [] [⟨[], false⟩] rfl
  have s2 := Step.query { (query (start 2 0 10 20)).1 with
    workers := [] ++ (query (start 2 0 10 20)).2 :: [⟨[], false⟩] } [⟨[], true⟩] [] rfl
  have := h 2 _ (.tail (.tail (.refl _) s1) s2) (by decide +kernel)
  have hl := this.length_eq
  simp [wanted, query, start] at hl

/-- Finding: with two workers, `execute(f, 15, 20)` calls `f` on indices outside `[15,20)`. -/
theorem C50_offset_outside_refuted :
    ∃ k s, Steps k (start 2 0 15 20) s ∧ (6 : Int) ∈ s.log := by
  obtain ⟨j, hj⟩ := runFirst_steps 30 (start 2 0 15 20)
  exact ⟨j, _, hj, by decide +kernel⟩

end Verif.Thread.ParallelFor
