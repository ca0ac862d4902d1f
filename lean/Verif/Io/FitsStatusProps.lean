import Verif.Io.FitsStatus
import Mathlib.Tactic.Common
/-!
# C135: file objects after an error
-/
namespace Verif.FitsStatus
open Verif

variable {N : Type}

/-- Spec: what each operation should give, whatever happened before: it depends only on the file that is opened -/
def Fair (exist : N → Bool) (file : Option N) : Op N → Option N × Out
  | .opn name => if exist name then (some name, .done) else (none, .thrown)
  | .close => (none, .done)
  | .call ok => (file, if file.isSome && ok then .done else .thrown)
  | .reset ok => (file, if file.isSome && ok then .done else .thrown)
  | .forgive => (file, if file.isSome then .done else .thrown)
  | .column found => (file, if file.isSome then (if found then .done else .missing) else .thrown)

/-- **C135** as long as the object has seen no error, each operation gives what is expected; and it has still seen none if it succeeded -/
theorem C135_partial (exist : N → Bool) (s : Obj N) (o : Op N) (h : s.bad = false) :
    ((step exist s o).1.fptr, (step exist s o).2) = Fair exist s.fptr o ∧ ((step exist s o).2 ≠ .thrown → (step exist s o).1.bad = false) := by
  obtain ⟨p, b⟩ := s
  simp only at h
  subst h
  cases o with
  | opn name =>
    cases he : exist name <;> cases p <;> simp [step, opn, close, cfitsio, Fair, he]
  | close => cases p <;> simp [step, close, Fair]
  | call ok => cases p <;> cases ok <;> simp [step, cfitsio, Fair]
  | reset ok => cases p <;> cases ok <;> simp [step, cfitsio, Fair]
  | forgive => cases p <;> simp [step, Fair]
  | column found => cases p <;> cases found <;> simp [step, cfitsio, Fair]

/-- the file and the outcomes that are expected after a sequence of operations -/
def fairs (exist : N → Bool) : List (Op N) → Option N → Option N × List Out
  | [], p => (p, [])
  | o :: l, p =>
    let r := Fair exist p o
    let q := fairs exist l r.1
    (q.1, r.2 :: q.2)

/-- **C135** a sequence of operations gives what is expected, up to and including the first error -/
theorem C135_sequence_partial (exist : N → Bool) : ∀ (l : List (Op N)) (o : Op N) (s : Obj N), s.bad = false → .thrown ∉ (fairs exist l s.fptr).2 →
    let r := steps exist (l ++ [o]) s
    (r.1.fptr, r.2) = fairs exist (l ++ [o]) s.fptr
  | [], o, s, hs, _ => by
    have h := (C135_partial exist s o hs).1
    simp only [List.nil_append, steps, fairs]
    rw [← h]
  | a :: l, o, s, hs, hn => by
    obtain ⟨h1, h2⟩ := C135_partial exist s a hs
    have e1 : (step exist s a).1.fptr = (Fair exist s.fptr a).1 := by rw [← h1]
    have e2 : (step exist s a).2 = (Fair exist s.fptr a).2 := by rw [← h1]
    simp only [fairs, List.mem_cons, not_or] at hn
    have ih := C135_sequence_partial exist l o (step exist s a).1 (h2 (by rw [e2]; exact fun h => hn.1 h.symm)) (by rw [e1]; exact hn.2)
    simp only at ih
    simp only [List.cons_append, steps, fairs]
    rw [← e1, ← ih, e2]

/-- **C135** a file that is opened can be closed and another opened, even after errors -/
theorem C135_reopen (exist : N → Bool) (s : Obj N) (name : N) (h : s.fptr.isSome = true) :
    let r := step exist s (.opn name)
    (r.1.fptr, r.2) = Fair exist s.fptr (.opn name) ∧ (step exist s .close).1 = ⟨none, false⟩ := by
  obtain ⟨p, b⟩ := s
  cases p with
  | none => simp at h
  | some p => cases he : exist name <;> simp [step, opn, close, cfitsio, Fair, he]

/-- **C135** after any errors, removing a keyword or a column, or searching a column that is not found, makes the object as good as new: the operations that follow give what is
expected, up to the next error -/
theorem C135_recover_partial (exist : N → Bool) (s : Obj N) (h : s.fptr.isSome = true) (a : Op N) (ha : a = .forgive ∨ a = .column false) (l : List (Op N)) (o : Op N)
    (hl : .thrown ∉ (fairs exist l s.fptr).2) :
    let r := steps exist (a :: (l ++ [o])) s
    (r.1.fptr, r.2) = fairs exist (a :: (l ++ [o])) s.fptr := by
  obtain ⟨p, b⟩ := s
  cases p with
  | none => simp at h
  | some p =>
    have e : step exist ⟨some p, b⟩ a = (⟨some p, false⟩, (Fair exist (some p) a).2) ∧ (Fair exist (some p) a).1 = some p := by
      rcases ha with ha | ha <;> subst ha <;> cases b <;> simp [step, cfitsio, Fair]
    have h2 := C135_sequence_partial exist l o ⟨some p, false⟩ rfl hl
    dsimp only at h2
    have e1 : (steps exist (l ++ [o]) ⟨some p, false⟩).1.fptr = (fairs exist (l ++ [o]) (some p)).1 := by rw [← h2]
    have e2 : (steps exist (l ++ [o]) ⟨some p, false⟩).2 = (fairs exist (l ++ [o]) (some p)).2 := by rw [← h2]
    simp only [steps, fairs, e.1, e.2, e1, e2]

/-- **C135 does not hold** when no file is opened: once `open` has failed, the object cannot open any file, whatever is done with it -/
theorem C135_open_refuted (exist : N → Bool) (name : N) (h : exist name = false) : ∀ (s : Obj N), (step exist s (.opn name)).1 = ⟨none, true⟩ ∧
    ∀ (l : List (Op N)), (steps exist l ⟨none, true⟩).1 = ⟨none, true⟩ ∧
      ∀ (k : Nat) (other : N), l[k]? = some (.opn other) → (steps exist l ⟨none, true⟩).2[k]? = some .thrown := by
  intro s
  refine ⟨?_, ?_⟩
  · obtain ⟨p, b⟩ := s
    cases p <;> cases b <;> simp [step, opn, close, cfitsio, h]
  · have hstep : ∀ o : Op N, (step exist ⟨none, true⟩ o).1 = ⟨none, true⟩ := by
      intro o
      cases o <;> simp [step, opn, close, cfitsio]
    intro l
    induction l with
    | nil => exact ⟨rfl, by simp⟩
    | cons o l ih =>
      simp only [steps, hstep]
      refine ⟨ih.1, fun k other hk => ?_⟩
      cases k with
      | zero =>
        simp only [List.getElem?_cons_zero, Option.some.injEq] at hk
        subst hk
        simp [step, opn, close, cfitsio]
      | succ k => simpa using ih.2 k other (by simpa using hk)

/-- **C135 does not hold** after the failure of any function, caught by the caller: the next functions fail although they would succeed -/
theorem C135_call_refuted (exist : N → Bool) (name : N) : ∀ (l : List Bool),
    (steps exist (.call false :: l.map .call) ⟨some name, false⟩).2 = List.replicate (l.length + 1) .thrown := by
  have h : ∀ l : List Bool, (steps exist (l.map .call) ⟨some name, true⟩).2 = List.replicate l.length .thrown := by
    intro l
    induction l with
    | nil => rfl
    | cons b l ih =>
      have h0 : step exist ⟨some name, true⟩ (.call b) = (⟨some name, true⟩, .thrown) := by simp [step, cfitsio]
      simp only [List.map_cons, steps, h0, ih]
      rfl
  intro l
  have h0 : step exist (⟨some name, false⟩ : Obj N) (.call false) = (⟨some name, true⟩, .thrown) := by simp [step, cfitsio]
  simp only [steps, h0, h]
  rfl

/-- **C135 does not hold** for columns after such a failure: a column that exists is said to be missing; the second search finds it -/
theorem C135_column_refuted (exist : N → Bool) (name : N) :
    (steps exist [.call false, .column true, .column true] ⟨some name, false⟩).2 = [.thrown, .missing, .done] := by
  simp [steps, step, cfitsio]

/-! ### Cases -/

example : (steps (fun n => n == 1) [.opn 1, .call false, .call true, .forgive, .call true] {}).2 = [.done, .thrown, .thrown, .done, .done] := by decide

example : (steps (fun n => n == 1) [.opn 1, .call true, .column false, .reset true, .close, .opn 2] {}).2 = [.done, .done, .missing, .done, .done, .thrown] := by decide
example : (steps (fun n => n == 1) [.opn 2, .close, .opn 1] {}).2 = [.thrown, .done, .thrown] := by decide
example : (fairs (fun n => n == 1) [.opn 2, .close, .opn 1] none).2 = [.thrown, .done, .done] := by decide
example : Out.thrown ∉ (fairs (fun n => n == 1) [.opn 1, .call true] none).2 := by decide
example : ∃ s : Obj Nat, s.fptr.isSome = true ∧ s.bad = true := ⟨⟨some 1, true⟩, rfl, rfl⟩

end Verif.FitsStatus
