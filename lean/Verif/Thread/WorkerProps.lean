import Verif.Thread.Worker
/-!
# Property C48: `thread::worker` runs every job once, in order, before `wait` returns
-/
namespace Verif.Thread.Worker
variable {J : Type}

/-- job being executed -/
def current : Option (CPc J) → List J
  | some (.run j) => [j]
  | _ => []

structure Inv (s : State J) : Prop where
  split : s.pushed = s.executed ++ current s.thread ++ s.queue
  none_empty : s.thread = none → s.queue = [] ∧ s.stop = false ∧ ∀ j, s.user ≠ .pushing j
  exited : s.thread = some .exited → s.queue = [] ∧ s.user = .joining
  testEmpty : s.thread = some .testEmpty → s.user = .joining
  joining : s.user = .joining ↔ s.stop = true
  
theorem inv_step {s t : State J} (hi : Inv s) (h : Step s t) : Inv t := by
  obtain ⟨h1, h2, h3, h4, h5⟩ := hi
  cases h with
  | pushCall j hu =>
    cases ht : s.thread with
    | none =>
      refine ⟨by simpa [ht, current] using h1, by simp, by simp, by simp, ?_⟩
      simp only [reduceCtorEq, false_iff]
      rw [← h5, hu]; simp
    | some c =>
      refine ⟨by simpa [ht] using h1, by simp, ?_, ?_, ?_⟩
      · intro he; have := h3 (by rw [ht]; simpa using he); rw [hu] at this; simp at this
      · intro he; have := h4 (by rw [ht]; simpa using he); rw [hu] at this; simp at this
      · simp only [reduceCtorEq, false_iff]
        rw [← h5, hu]; simp
  | pushPublish j hu =>
    refine ⟨by simp [h1], ?_, ?_, ?_, ?_⟩
    · intro he; exact absurd hu ((h2 he).2.2 j)
    · intro he; have := (h3 he).2; rw [hu] at this; simp at this
    · intro he; have := h4 he; rw [hu] at this; simp at this
    · simp only [reduceCtorEq, false_iff]
      rw [← h5, hu]; simp
  | waitNone hu hn => exact ⟨h1, h2, h3, h4, h5⟩
  | waitStop c hu hc =>
    refine ⟨h1, ?_, ?_, fun _ => rfl, by simp⟩
    · intro he; simp [hc] at he
    · intro he; exact ⟨(h3 he).1, rfl⟩
  | waitJoin hu hx =>
    refine ⟨?_, fun _ => ⟨(h3 hx).1, rfl, by simp⟩, by simp, by simp, by simp⟩
    rw [hx] at h1; simpa [current] using h1
  | cTestStop hc =>
    rw [hc] at h1
    by_cases hs : s.stop = true
    · simp only [hs, if_true]
      exact ⟨by simpa [current] using h1, by simp, by simp, fun _ => h5.2 hs, by simpa [hs] using h5⟩
    · rw [if_neg hs]
      exact ⟨by simpa [current] using h1, by simp, by simp, by simp, h5⟩
  | cTestEmpty hc =>
    rw [hc] at h1
    by_cases hq : s.queue = []
    · simp only [hq, List.isEmpty_nil, if_true]
      exact ⟨by simpa [current, hq] using h1, by simp, fun _ => ⟨rfl, h4 hc⟩, by simp, h5⟩
    · have : s.queue.isEmpty = false := by simpa using hq
      simp only [this]
      exact ⟨by simpa [current] using h1, by simp, by simp, by simp, h5⟩
  | cPopOk j q hc hq =>
    rw [hc, hq] at h1
    exact ⟨by simpa [current] using h1, by simp, by simp, by simp, h5⟩
  | cPopFail hc hq =>
    rw [hc, hq] at h1
    exact ⟨by simpa [current, hq] using h1, by simp, by simp, by simp, h5⟩
  | cRun j hc =>
    rw [hc] at h1
    exact ⟨by simpa [current] using h1, by simp, by simp, by simp, h5⟩
  | cSleep hc =>
    rw [hc] at h1
    exact ⟨by simpa [current] using h1, by simp, by simp, by simp, h5⟩

theorem inv_reach {s : State J} (h : Reach s) : Inv s := by
  induction h with
  | init => exact ⟨rfl, fun _ => ⟨rfl, rfl, by simp⟩, by simp, by simp, by simp⟩
  | step _ hs ih => exact inv_step ih hs

/-- Whenever a call of `wait` returns (the counter of returned waits grows), every job pushed so
far has been executed exactly once and in push order. -/
theorem C48_wait {s t : State J} (h : Reach s) (hs : Step s t) (hw : t.waits = s.waits + 1) :
    t.executed = t.pushed := by
  have hi := inv_reach h
  have ht := inv_step hi hs
  have hne : t.thread = none := by
    cases hs with
    | waitNone _ hn => exact hn
    | waitJoin => rfl
    | _ => simp at hw
  have := ht.split
  rw [hne, (ht.none_empty hne).1] at this
  simpa [current] using this.symm

/-- At any moment of any schedule the executed jobs are a prefix of the pushed jobs: no job runs
twice, none out of order, none that was not pushed. -/
theorem C48_prefix {s : State J} (h : Reach s) : s.executed <+: s.pushed := by
  rw [(inv_reach h).split, List.append_assoc]
  exact List.prefix_append _ _

/-- Measure for termination of `wait`. -/
def waitMeasure (s : State J) : Nat :=
  8 * s.queue.length + match s.thread with
    | none => 0
    | some (.run _) => 5
    | some .pop => 4
    | some .sleep => if s.queue.isEmpty then 3 else 8
    | some .testStop => if s.queue.isEmpty then 2 else 7
    | some .testEmpty => if s.queue.isEmpty then 1 else 6
    | some .exited => 0

/-- `wait` returns: while the user thread is blocked in `join`, some step is possible, and every
step either lets `wait` return or strictly decreases a natural number (so under every schedule
`wait` returns after finitely many steps, provided the jobs themselves return). -/
theorem C48_wait_terminates {s : State J} (h : Reach s) (hu : s.user = .joining) :
    (∃ t, Step s t) ∧
    ∀ t, Step s t → t.waits = s.waits + 1 ∨ (t.user = .joining ∧ waitMeasure t < waitMeasure s) := by
  have hi := inv_reach h
  constructor
  · cases ht : s.thread with
    | none => have := (hi.none_empty ht).2.1; have := hi.joining.1 hu; simp_all
    | some c =>
      cases c with
      | testStop => exact ⟨_, .cTestStop s ht⟩
      | testEmpty => exact ⟨_, .cTestEmpty s ht⟩
      | pop =>
        cases hq : s.queue with
        | nil => exact ⟨_, .cPopFail s ht hq⟩
        | cons j q => exact ⟨_, .cPopOk s j q ht hq⟩
      | run j => exact ⟨_, .cRun s j ht⟩
      | sleep => exact ⟨_, .cSleep s ht⟩
      | exited => exact ⟨_, .waitJoin s hu ht⟩
  · intro t hs
    cases hs with
    | pushCall j hu' => rw [hu] at hu'; simp at hu'
    | pushPublish j hu' => rw [hu] at hu'; simp at hu'
    | waitNone hu' => rw [hu] at hu'; simp at hu'
    | waitStop c hu' => rw [hu] at hu'; simp at hu'
    | waitJoin => exact .inl rfl
    | cTestStop hc =>
      right; refine ⟨hu, ?_⟩
      have := hi.joining.1 hu
      simp only [waitMeasure, hc, this, if_true]
      split <;> omega
    | cTestEmpty hc =>
      right; refine ⟨hu, ?_⟩
      by_cases hq : s.queue.isEmpty = true
      · simp [waitMeasure, hc, hq]
      · simp [waitMeasure, hc, hq]
    | cPopOk j q hc hq =>
      right; refine ⟨hu, ?_⟩
      simp only [waitMeasure, hc, hq, List.length_cons]
      omega
    | cPopFail hc hq =>
      right; refine ⟨hu, ?_⟩
      simp [waitMeasure, hc, hq]
    | cRun j hc =>
      right; refine ⟨hu, ?_⟩
      simp [waitMeasure, hc]
    | cSleep hc =>
      right; refine ⟨hu, ?_⟩
      simp only [waitMeasure, hc]
      split <;> omega

/-- Non-vacuity: a schedule in which a job is pushed, `wait` is called, and `wait` returns. -/
example : ∃ s t : State Nat, Reach s ∧ Step s t ∧ t.waits = s.waits + 1 ∧ t.pushed = [7] := by
  have r0 : Reach ({} : State Nat) := .init
  have r1 := Reach.step r0 (.pushCall _ 7 rfl)
  have r2 := Reach.step r1 (.pushPublish _ 7 rfl)
  have r3 := Reach.step r2 (.waitStop _ .testStop rfl rfl)
  have r4 := Reach.step r3 (.cTestStop _ rfl)
  have r5 := Reach.step r4 (.cTestEmpty _ rfl)
  have r6 := Reach.step r5 (.cPopOk _ 7 [] rfl rfl)
  have r7 := Reach.step r6 (.cRun _ 7 rfl)
  have r8 := Reach.step r7 (.cPopFail _ rfl rfl)
  have r9 := Reach.step r8 (.cSleep _ rfl)
  have r10 := Reach.step r9 (.cTestStop _ rfl)
  have r11 := Reach.step r10 (.cTestEmpty _ rfl)
  exact ⟨_, _, r11, .waitJoin _ rfl rfl, rfl, rfl⟩

end Verif.Thread.Worker
