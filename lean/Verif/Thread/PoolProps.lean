import Verif.Thread.Pool
import Mathlib.Logic.Function.Iterate
/-!
# Property C49 and C73: `thread::worker_pool`
-/
namespace Verif.Thread.Pool
variable {T : Type}

def current : WPc T → List T
  | .run t => [t]
  | _ => []

/-- Per-worker invariant. -/
def WInv (w : W T) : Prop := w.given = w.executed ++ current w.pc ++ w.queue

structure Inv (s : State T) : Prop where
  each : ∀ w ∈ s.ws, WInv w
  consume : ∀ i, s.main = .consume i → ∀ j w, j < i → s.ws[j]? = some w → w.queue = []
  drained : s.drained = true → ∀ w ∈ s.ws, w.queue = []
  joining : ∀ i, s.main = .joining i → ∀ j w, j < i → s.ws[j]? = some w → w.pc = .exited
  joined : s.main = .joined → ∀ w ∈ s.ws, w.pc = .exited

theorem mem_of_idx {l : List (W T)} {i : Nat} {w : W T} (h : l[i]? = some w) : w ∈ l :=
  List.mem_of_getElem? h

theorem each_set {l : List (W T)} {i : Nat} {w' : W T} {P : W T → Prop}
    (h : ∀ w ∈ l, P w) (hw : P w') : ∀ w ∈ l.set i w', P w := by
  intro w hm
  rcases List.mem_or_eq_of_mem_set hm with h1 | h1
  · exact h w h1
  · exact h1 ▸ hw

/-- a worker step keeps properties of queue emptiness and exit of every position -/
theorem idx_set {l : List (W T)} {i j : Nat} {w w' x : W T} (hi : l[i]? = some w)
    (hx : (l.set i w')[j]? = some x) : (j = i ∧ x = w') ∨ (j ≠ i ∧ l[j]? = some x) := by
  by_cases h : j = i
  · subst h
    have hlt : j < l.length := by
      by_contra hc
      rw [List.getElem?_eq_none (by omega)] at hi; simp at hi
    rw [List.getElem?_set_self hlt] at hx
    simp at hx; exact .inl ⟨rfl, hx.symm⟩
  · rw [List.getElem?_set_ne (Ne.symm h)] at hx
    exact .inr ⟨h, hx⟩

/-- common part of all worker-local steps -/
theorem inv_worker {s : State T} (hi : Inv s) (i : Nat) (w w' : W T) (hw : s.ws[i]? = some w)
    (h1 : WInv w') (h2 : w.queue = [] → w'.queue = []) (h3 : w.pc = .exited → w'.pc = .exited) :
    Inv { s with ws := s.ws.set i w' } := by
  refine ⟨each_set hi.each h1, ?_, ?_, ?_, ?_⟩
  · intro k hk j x hj hx
    rcases idx_set hw hx with ⟨rfl, rfl⟩ | ⟨_, hx⟩
    · exact h2 (hi.consume k hk j w hj hw)
    · exact hi.consume k hk j x hj hx
  · intro hd
    exact each_set (hi.drained hd) (h2 (hi.drained hd w (mem_of_idx hw)))
  · intro k hk j x hj hx
    rcases idx_set hw hx with ⟨rfl, rfl⟩ | ⟨_, hx⟩
    · exact h3 (hi.joining k hk j w hj hw)
    · exact hi.joining k hk j x hj hx
  · intro hj
    exact each_set (hi.joined hj) (h3 (hi.joined hj w (mem_of_idx hw)))

theorem inv_step {s t : State T} (hi : Inv s) (h : Step s t) : Inv t := by
  cases h with
  | process t w hm hw =>
    have hwi := hi.each w (mem_of_idx hw)
    refine ⟨each_set hi.each ?_, by simp [hm], by simp, by simp [hm], by simp [hm]⟩
    unfold WInv W.push at *; simp [hwi]
  | processAt i t w hm hw =>
    have hwi := hi.each w (mem_of_idx hw)
    refine ⟨each_set hi.each ?_, by simp [hm], by simp, by simp [hm], by simp [hm]⟩
    unfold WInv W.push at *; simp [hwi]
  | consumeCall hm => exact ⟨hi.each, by simp, hi.drained, by simp, by simp⟩
  | consumeBusy i w hm hw hq => exact ⟨hi.each, by simp, hi.drained, by simp, by simp⟩
  | consumeNext i w hm hw hq =>
    refine ⟨hi.each, ?_, hi.drained, by simp, by simp⟩
    intro k hk j x hj hx
    simp at hk; subst hk
    by_cases hji : j = i
    · subst hji; rw [hw] at hx; cases hx; exact hq
    · exact hi.consume i hm j x (by omega) hx
  | consumeRet hm =>
    refine ⟨hi.each, by simp, ?_, by simp, by simp⟩
    intro _ x hx
    obtain ⟨j, hj, hjx⟩ := List.getElem_of_mem hx
    exact hi.consume _ hm j x hj (by rw [List.getElem?_eq_getElem hj, hjx])
  | joinCall hm => exact ⟨hi.each, by simp, hi.drained, by simp, by simp⟩
  | setFlag i w hm hw =>
    have := inv_worker hi i w { w with shutdown := true } hw (hi.each w (mem_of_idx hw)) id id
    exact ⟨this.each, by simp, this.drained, by simp, by simp⟩
  | setFlagsEnd hm => exact ⟨hi.each, by simp, hi.drained, by simp, by simp⟩
  | joinOne i w hm hw hx =>
    refine ⟨hi.each, by simp, hi.drained, ?_, by simp⟩
    intro k hk j x hj hjx
    simp at hk; subst hk
    by_cases hji : j = i
    · subst hji; rw [hw] at hjx; cases hjx; exact hx
    · exact hi.joining i hm j x (by omega) hjx
  | joinEnd hm =>
    refine ⟨hi.each, by simp, hi.drained, by simp, ?_⟩
    intro _ x hx
    obtain ⟨j, hj, hjx⟩ := List.getElem_of_mem hx
    exact hi.joining _ hm j x hj (by rw [List.getElem?_eq_getElem hj, hjx])
  | wTest i w hw hp =>
    refine inv_worker hi i w _ hw ?_ id (by simp [hp])
    have := hi.each w (mem_of_idx hw)
    unfold WInv at *; rw [hp] at this
    simp only
    split <;> simpa [current] using this
  | wPop i w t q hw hp hq =>
    refine inv_worker hi i w _ hw ?_ (by simp [hq]) (by simp [hp])
    have := hi.each w (mem_of_idx hw)
    unfold WInv at *; rw [hp, hq] at this
    simpa [current] using this
  | wPopFail i w hw hp hq =>
    refine inv_worker hi i w _ hw ?_ id (by simp [hp])
    have := hi.each w (mem_of_idx hw)
    unfold WInv at *; rw [hp] at this
    simpa [current] using this
  | wRun i w t hw hp =>
    refine inv_worker hi i w _ hw ?_ id (by simp [hp])
    have := hi.each w (mem_of_idx hw)
    unfold WInv at *; rw [hp] at this
    simpa [current] using this

theorem inv_reach {n : Nat} {s : State T} (h : Reach n s) : Inv s := by
  induction h with
  | init =>
    refine ⟨?_, by simp [start], by simp [start], by simp [start], by simp [start]⟩
    intro w hw
    simp only [start] at hw
    rw [List.eq_of_mem_replicate hw]; rfl
  | step _ hs ih => exact inv_step ih hs

/-- C49: when `join` returns after a `consume_all` with no later `process`, every worker has
executed exactly the items it was given, once each and in order. -/
theorem C49_consume_then_join {n : Nat} {s : State T} (h : Reach n s) (hd : s.drained = true)
    (hj : s.main = .joined) : ∀ w ∈ s.ws, w.executed = w.given := by
  intro w hw
  have hi := inv_reach h
  have h1 := hi.each w hw
  unfold WInv at h1
  rw [hi.joined hj w hw, hi.drained hd w hw] at h1
  simpa [current] using h1.symm

/-- At any moment the executed items of each worker are a prefix of those given to it (nothing
runs twice, out of order, or on the wrong worker), and as soon as `consume_all` has returned at
most one item per worker is still unfinished. -/
theorem C49_at_most_once {n : Nat} {s : State T} (h : Reach n s) :
    ∀ w ∈ s.ws, w.executed <+: w.given ∧
      (s.drained = true → w.given.length ≤ w.executed.length + 1) := by
  intro w hw
  have hi := inv_reach h
  have h1 := hi.each w hw
  unfold WInv at h1
  refine ⟨by rw [h1, List.append_assoc]; exact List.prefix_append _ _, fun hd => ?_⟩
  rw [h1, hi.drained hd w hw]
  cases w.pc <;> simp [current]

/-- `process(t)` distributes cyclically: the `k`-th item after `start(n)` goes to worker `k mod n`. -/
theorem C49_round_robin (n : Nat) (hn : 0 < n) (k : Nat) :
    (nextTarget n)^[k + 1] (n - 1) = k % n := by
  induction k with
  | zero => simp [nextTarget, Nat.sub_add_cancel hn]
  | succ k ih =>
    rw [Function.iterate_succ_apply', ih]
    unfold nextTarget
    have hk : k % n < n := Nat.mod_lt _ hn
    rw [← Nat.mod_add_mod k n 1]
    split
    · have : k % n + 1 = n := by omega
      rw [this, Nat.mod_self]
    · rw [Nat.mod_eq_of_lt (a := k % n + 1) (by omega)]

example : (nextTarget 3)^[5] 2 = 1 := by decide

/-- Non-vacuity of C49: a schedule processing one item on one worker, draining and joining. -/
example : ∃ s : State Nat, Reach 1 s ∧ s.drained = true ∧ s.main = .joined ∧
    ∀ w ∈ s.ws, w.given = [5] := by
  have r0 : Reach 1 (start 1 : State Nat) := .init
  have r1 := Reach.step r0 (.process _ 5 {} rfl rfl)
  have r2 := Reach.step r1 (.wTest _ 0 _ rfl rfl)
  have r3 := Reach.step r2 (.wPop _ 0 _ 5 [] rfl rfl rfl)
  have r4 := Reach.step r3 (.consumeCall _ rfl)
  have r5 := Reach.step r4 (.consumeNext _ 0 _ rfl rfl rfl)
  have r6 := Reach.step r5 (.consumeRet _ rfl)
  have r7 := Reach.step r6 (.wRun _ 0 _ 5 rfl rfl)
  have r8 := Reach.step r7 (.wPopFail _ 0 _ rfl rfl rfl)
  have r9 := Reach.step r8 (.joinCall _ rfl)
  have r10 := Reach.step r9 (.setFlag _ 0 _ rfl rfl)
  have r11 := Reach.step r10 (.setFlagsEnd _ rfl)
  have r12 := Reach.step r11 (.wTest _ 0 _ rfl rfl)
  have r13 := Reach.step r12 (.joinOne _ 0 _ rfl rfl rfl)
  have r14 := Reach.step r13 (.joinEnd _ rfl)
  refine ⟨_, r14, rfl, rfl, ?_⟩
  intro w hw
  simp [start, nextTarget, W.push] at hw
  subst hw; rfl

/-- Full statement of C73: when `join` returns, every item given has been executed. -/
def JoinLosesNothing (n : Nat) : Prop :=
  ∀ s : State Nat, Reach n s → s.main = .joined → ∀ w ∈ s.ws, w.executed = w.given

/-- Finding (C73): `join` (also called by the destructor) can lose items that are still queued: a
worker that tests `shutdown` before popping exits with a non-empty queue. -/
theorem C73_join_loses_items : ¬ JoinLosesNothing 1 := by
  intro hall
  have r0 : Reach 1 (start 1 : State Nat) := .init
  have r1 := Reach.step r0 (.process _ 5 {} rfl rfl)
  have r2 := Reach.step r1 (.joinCall _ rfl)
  have r3 := Reach.step r2 (.setFlag _ 0 _ rfl rfl)
  have r4 := Reach.step r3 (.setFlagsEnd _ rfl)
  have r5 := Reach.step r4 (.wTest _ 0 _ rfl rfl)
  have r6 := Reach.step r5 (.joinOne _ 0 _ rfl rfl rfl)
  have r7 := Reach.step r6 (.joinEnd _ rfl)
  have := hall _ r7 rfl
  simp [start, nextTarget, W.push] at this

/-- What does hold for a plain `join` (C73): the items not executed are exactly those still queued
when the worker stopped, i.e. the executed items are a prefix of the given ones and the rest is
the final queue content. -/
theorem C73_join_partial {n : Nat} {s : State T} (h : Reach n s) (hj : s.main = .joined) :
    ∀ w ∈ s.ws, w.given = w.executed ++ w.queue := by
  intro w hw
  have hi := inv_reach h
  have h1 := hi.each w hw
  unfold WInv at h1
  rw [hi.joined hj w hw] at h1
  simpa [current] using h1

/-- In a pool with no worker, `process` has no legal target (the code indexes `workers[0]`). -/
theorem C49_empty_pool (lp : Nat) : (start 0 : State T).ws[nextTarget 0 lp]? = none := by
  simp [start]

end Verif.Thread.Pool
