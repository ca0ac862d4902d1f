import Verif.Basic
import Mathlib.Data.List.Nodup
import Mathlib.Data.List.Induction
/-!
# Errors of the reading of columns: `read_sentry` (C243)

`input_table::read_column` gives a value that remembers whether the column could be read. If nobody looks at it, its destructor stops the program. A program is the list of what it does
with these values, which are in variables; temporary values are variables that are destroyed at the end of the statement. The message is a number.
-/
namespace Verif.Sentry
open Verif

/-! ### Model -/

/-- `read_sentry` (`fits/table.hpp:308-335`) -/
structure Sentry where
  checked : Bool
  good : Bool
  err : Nat
deriving DecidableEq

/-- what a program does -/
inductive Op
  /-- `auto v = tbl.read_column(...)`: `none` if the column is read, `some e` if there is an error -/
  | read (v : Nat) (e : Option Nat)
  /-- `auto v = std::move(w)` -/
  | move (v w : Nat)
  /-- `v = std::move(w)`, also `v = tbl.read_column(...)` with a temporary value `w` -/
  | assign (v w : Nat)
  /-- `v.is_good()`, `v.reason()`, `if (v)` -/
  | look (v : Nat)
  /-- the end of the scope of `v` -/
  | drop (v : Nat)
deriving DecidableEq

/-- the variables -/
abbrev Vars := Nat → Option Sentry

def Vars.set (s : Vars) (v : Nat) (x : Option Sentry) : Vars := fun k => if k = v then x else s k

/-- `read_sentry{}` and `read_sentry{this, err}` (`fits/table.hpp:319-335`) -/
def fresh : Option Nat → Sentry
  | none => ⟨false, true, 0⟩
  | some e => ⟨false, false, e⟩

/-- One operation: a new variable has to be new and a variable has to exist, or this is not a program. The destructor is `fits/table.hpp:337-341`, the two moves `:343-354`, the looks `:356-368`. -/
def step (s : Vars) : Op → Res Vars
  | .read v e => if s v = none then .ok (s.set v (some (fresh e))) else .ub
  | .move v w =>
    match s v, s w with
    | none, some x => .ok ((s.set v (some x)).set w (some { x with checked := true }))
    | _, _ => .ub
  | .assign v w =>
    match s v, s w with
    | some _, some x => .ok ((s.set v (some x)).set w (some { x with checked := true }))
    | _, _ => .ub
  | .look v =>
    match s v with
    | some x => .ok (s.set v (some { x with checked := true }))
    | none => .ub
  | .drop v =>
    match s v with
    | some x => if x.checked = false ∧ x.good = false then .abort else .ok (s.set v none)
    | none => .ub

/-- a program -/
def run : Vars → List Op → Res Vars
  | s, [] => .ok s
  | s, o :: os => do
    let s ← step s o
    run s os

/-- the reading of a structure (`fits/table.hpp:578-583, 663-691`): each member is read in a temporary value, and the result is always good -/
def readStruct (v tmp : Nat) (members : List (Option Nat)) : List Op :=
  (members.flatMap fun e => [.read tmp e, .drop tmp]) ++ [.read v none]

/-! ### Specification -/

/-- the errors that happened -/
def errors (os : List Op) : List Nat := os.filterMap fun o => match o with
  | .read _ (some e) => some e
  | _ => none

/-- what the variables hold for a reader of the program: the error that was last put in it, if it did not go to another variable -/
def holds : List Op → Nat → Option Nat
  | [], _ => none
  | .read v e :: os, k => if k = v then e else holds os k
  | .move v w :: os, k => if k = w then none else if k = v then holds os w else holds os k
  | .assign v w :: os, k => if k = w then none else if k = v then holds os w else holds os k
  | .look _ :: os, k => holds os k
  | .drop v :: os, k => if k = v then none else holds os k

/-- the errors that the program looked at; the list is that of the operations from the last one to the first one -/
def seen : List Op → List Nat
  | [] => []
  | .look v :: os => (holds os v).toList ++ seen os
  | _ :: os => seen os

/-- no assignment -/
def NoAssign (os : List Op) : Prop := ∀ v w, Op.assign v w ∉ os

/-! ### Lemmas -/

theorem run_snoc (s : Vars) (os : List Op) (o : Op) : run s (os ++ [o]) = (run s os >>= fun t => step t o) := by
  induction os generalizing s with
  | nil =>
    show (step s o >>= fun s => Res.ok s) = step s o
    cases step s o <;> rfl
  | cons a os ih =>
    show (step s a >>= fun s => run s (os ++ [o])) = ((step s a >>= fun s => run s os) >>= _)
    cases h : step s a with
    | ok t => exact ih t
    | _ => rfl

/-- the state after the operations `p`, from the last one to the first one -/
structure Inv (p : List Op) (s : Vars) : Prop where
  /-- an error in a variable is known and was not seen, or the variable is checked -/
  live : ∀ v x, s v = some x → x.checked = false → x.good = false → holds p v = some x.err
  /-- no error is lost -/
  kept : NoAssign p → ∀ e ∈ errors p, e ∈ seen p ∨ ∃ v x, s v = some x ∧ x.checked = false ∧ x.good = false ∧ x.err = e
  /-- a variable that holds an error is not checked or the error was seen -/
  held : ∀ v e, holds p v = some e → e ∈ errors p ∧ ∃ x, s v = some x ∧ x.good = false ∧ x.err = e ∧ (x.checked = true → e ∈ seen p)

theorem errors_cons (o : Op) (os : List Op) : errors (o :: os) = (match o with | .read _ (some e) => [e] | _ => []) ++ errors os := by
  unfold errors
  cases o with
  | read v e => cases e <;> simp
  | _ => simp

theorem inv_step (p : List Op) (s t : Vars) (o : Op) (h : Inv p s) (ht : step s o = .ok t) : Inv (o :: p) t := by
  cases o with
  | read v e =>
    have ht : (if s v = none then Res.ok (s.set v (some (fresh e))) else .ub) = .ok t := ht
    split at ht
    swap
    · cases ht
    rename_i hv
    cases ht
    refine ⟨?_, ?_, ?_⟩
    · intro k x hk hc hg
      show (if k = v then e else holds p k) = _
      simp only [Vars.set] at hk
      split at hk
      · rename_i hkv
        rw [if_pos hkv]
        cases hk
        cases e with
        | none => simp [fresh] at hg
        | some e => rfl
      · rename_i hkv
        rw [if_neg hkv]
        exact h.live k x hk hc hg
    · intro hn e' he'
      have hn' : NoAssign p := fun a b hab => hn a b (List.mem_cons_of_mem _ hab)
      show e' ∈ seen p ∨ _
      rw [errors_cons] at he'
      rcases List.mem_append.1 he' with h1 | h1
      · cases e with
        | none => cases h1
        | some e =>
          simp only [List.mem_singleton] at h1
          subst h1
          exact .inr ⟨v, fresh (some e'), by simp [Vars.set], rfl, rfl, rfl⟩
      · rcases h.kept hn' e' h1 with h2 | ⟨k, x, hk, h3⟩
        · exact .inl h2
        · refine .inr ⟨k, x, ?_, h3⟩
          have : k ≠ v := by rintro rfl; rw [hv] at hk; cases hk
          simp [Vars.set, this, hk]
    · intro k e' hk0
      have hk : (if k = v then e else holds p k) = some e' := hk0
      rw [errors_cons]
      split at hk
      · rename_i hkv
        subst hkv
        subst hk
        exact ⟨by simp, fresh (some e'), by simp [Vars.set], rfl, rfl, fun hc => by simp [fresh] at hc⟩
      · rename_i hkv
        obtain ⟨h1, x, h2, h3⟩ := h.held k e' hk
        exact ⟨List.mem_append_right _ h1, x, by simp [Vars.set, hkv, h2], h3⟩
  | move v w =>
    cases hv : s v with
    | some y => simp [step, hv] at ht
    | none =>
      cases hw : s w with
      | none => simp [step, hv, hw] at ht
      | some x =>
        simp only [step, hv, hw, Res.ok.injEq] at ht
        subst ht
        have hne : v ≠ w := by rintro rfl; rw [hv] at hw; cases hw
        refine ⟨?_, ?_, ?_⟩
        · intro k y hk hc hg
          show (if k = w then none else if k = v then holds p w else holds p k) = _
          simp only [Vars.set] at hk
          by_cases h1 : k = w
          · rw [if_pos h1] at hk; cases hk; cases hc
          · rw [if_neg h1] at hk ⊢
            by_cases h2 : k = v
            · rw [if_pos h2] at hk ⊢; cases hk; exact h.live w x hw hc hg
            · rw [if_neg h2] at hk ⊢; exact h.live k y hk hc hg
        · intro hn e he
          have hn' : NoAssign p := fun a b hab => hn a b (List.mem_cons_of_mem _ hab)
          rcases h.kept hn' e he with h2 | ⟨k, y, hk, h3⟩
          · exact .inl h2
          · by_cases h1 : k = w
            · subst h1
              rw [hw] at hk; cases hk
              exact .inr ⟨v, x, by simp [Vars.set, hne], h3⟩
            · have h2 : k ≠ v := by rintro rfl; rw [hv] at hk; cases hk
              exact .inr ⟨k, y, by simp [Vars.set, h1, h2, hk], h3⟩
        · intro k e hk0
          have hk : (if k = w then none else if k = v then holds p w else holds p k) = some e := hk0
          split at hk
          · cases hk
          · rename_i h1
            split at hk
            · rename_i h2
              obtain ⟨h3, y, h4, h5⟩ := h.held w e hk
              rw [hw] at h4; cases h4
              subst h2
              exact ⟨h3, x, by simp [Vars.set, h1], h5⟩
            · rename_i h2
              obtain ⟨h3, y, h4, h5⟩ := h.held k e hk
              exact ⟨h3, y, by simp [Vars.set, h1, h2, h4], h5⟩
  | assign v w =>
    cases hv : s v with
    | none => simp [step, hv] at ht
    | some z =>
      cases hw : s w with
      | none => simp [step, hv, hw] at ht
      | some x =>
        simp only [step, hv, hw, Res.ok.injEq] at ht
        subst ht
        refine ⟨?_, ?_, ?_⟩
        · intro k y hk hc hg
          show (if k = w then none else if k = v then holds p w else holds p k) = _
          simp only [Vars.set] at hk
          by_cases h1 : k = w
          · rw [if_pos h1] at hk; cases hk; cases hc
          · rw [if_neg h1] at hk ⊢
            by_cases h2 : k = v
            · rw [if_pos h2] at hk ⊢; cases hk; exact h.live w x hw hc hg
            · rw [if_neg h2] at hk ⊢; exact h.live k y hk hc hg
        · intro hn
          exact absurd (by simp) (hn v w)
        · intro k e hk0
          have hk : (if k = w then none else if k = v then holds p w else holds p k) = some e := hk0
          split at hk
          · cases hk
          · rename_i h1
            split at hk
            · rename_i h2
              obtain ⟨h3, y, h4, h5⟩ := h.held w e hk
              rw [hw] at h4; cases h4
              subst h2
              exact ⟨h3, x, by simp [Vars.set, h1], h5⟩
            · rename_i h2
              obtain ⟨h3, y, h4, h5⟩ := h.held k e hk
              exact ⟨h3, y, by simp [Vars.set, h1, h2, h4], h5⟩
  | look v =>
    cases hv : s v with
    | none => simp [step, hv] at ht
    | some x =>
      simp only [step, hv, Res.ok.injEq] at ht
      subst ht
      refine ⟨?_, ?_, ?_⟩
      · intro k y hk hc hg
        simp only [Vars.set] at hk
        split at hk
        · cases hk; cases hc
        · exact h.live k y hk hc hg
      · intro hn e he
        have hn' : NoAssign p := fun a b hab => hn a b (List.mem_cons_of_mem _ hab)
        show e ∈ (holds p v).toList ++ seen p ∨ _
        rcases h.kept hn' e he with h2 | ⟨k, y, hk, h3⟩
        · exact .inl (List.mem_append_right _ h2)
        · by_cases h1 : k = v
          · subst h1
            refine .inl (List.mem_append_left _ ?_)
            rw [h.live k y hk h3.1 h3.2.1, h3.2.2]
            simp
          · exact .inr ⟨k, y, by simp [Vars.set, h1, hk], h3⟩
      · intro k e hk0
        have hk : holds p k = some e := hk0
        obtain ⟨h3, y, h4, h5, h6, h7⟩ := h.held k e hk
        refine ⟨h3, ?_⟩
        show ∃ x, _ ∧ _ ∧ _ ∧ (_ → e ∈ (holds p v).toList ++ seen p)
        by_cases h1 : k = v
        · subst h1
          rw [hv] at h4; cases h4
          exact ⟨{ x with checked := true }, by simp [Vars.set], h5, h6, fun _ => by rw [hk]; simp⟩
        · exact ⟨y, by simp [Vars.set, h1, h4], h5, h6, fun hc => List.mem_append_right _ (h7 hc)⟩
  | drop v =>
    cases hv : s v with
    | none => simp [step, hv] at ht
    | some x =>
      have ht : (match s v with
        | some x => if x.checked = false ∧ x.good = false then .abort else .ok (s.set v none)
        | none => .ub) = Res.ok t := ht
      rw [hv] at ht
      simp only at ht
      split at ht
      · cases ht
      rename_i hx
      cases ht
      refine ⟨?_, ?_, ?_⟩
      · intro k y hk hc hg
        show (if k = v then none else holds p k) = _
        simp only [Vars.set] at hk
        split at hk
        · cases hk
        · rename_i h1
          rw [if_neg h1]
          exact h.live k y hk hc hg
      · intro hn e he
        have hn' : NoAssign p := fun a b hab => hn a b (List.mem_cons_of_mem _ hab)
        rcases h.kept hn' e he with h2 | ⟨k, y, hk, h3⟩
        · exact .inl h2
        · have h1 : k ≠ v := by
            rintro rfl
            rw [hv] at hk; cases hk
            exact hx ⟨h3.1, h3.2.1⟩
          exact .inr ⟨k, y, by simp [Vars.set, h1, hk], h3⟩
      · intro k e hk0
        have hk : (if k = v then none else holds p k) = some e := hk0
        split at hk
        · cases hk
        · rename_i h1
          obtain ⟨h3, y, h4, h5⟩ := h.held k e hk
          exact ⟨h3, y, by simp [Vars.set, h1, h4], h5⟩

theorem inv_run (os : List Op) : ∀ s, run (fun _ => none) os = .ok s → Inv os.reverse s := by
  induction os using List.reverseRecOn with
  | nil =>
    intro s h
    cases h
    exact ⟨by simp, by simp [errors], by simp [holds]⟩
  | append_singleton os o ih =>
    intro s h
    rw [run_snoc] at h
    obtain ⟨t, h1, h2⟩ := Res.bind_eq_ok.1 h
    rw [List.reverse_append, List.reverse_singleton, List.singleton_append]
    exact inv_step _ _ _ _ (ih t h1) h2

theorem errors_reverse (os : List Op) (e : Nat) : e ∈ errors os.reverse ↔ e ∈ errors os := by
  unfold errors
  rw [List.filterMap_reverse, List.mem_reverse]

theorem holds_mem (p : List Op) (k e : Nat) (h : holds p k = some e) : e ∈ errors p := by
  induction p generalizing k with
  | nil => cases h
  | cons o p ih =>
    rw [errors_cons]
    cases o with
    | read v e' =>
      have h : (if k = v then e' else holds p k) = some e := h
      split at h
      · subst h; simp
      · exact List.mem_append_right _ (ih k h)
    | move v w =>
      have h : (if k = w then none else if k = v then holds p w else holds p k) = some e := h
      split_ifs at h
      · exact ih w h
      · exact ih k h
    | assign v w =>
      have h : (if k = w then none else if k = v then holds p w else holds p k) = some e := h
      split_ifs at h
      · exact ih w h
      · exact ih k h
    | look v => exact ih k h
    | drop v =>
      have h : (if k = v then none else holds p k) = some e := h
      split_ifs at h
      exact ih k h

theorem seen_mem (p : List Op) (e : Nat) (h : e ∈ seen p) : e ∈ errors p := by
  induction p with
  | nil => cases h
  | cons o p ih =>
    rw [errors_cons]
    cases o with
    | look v =>
      have h : e ∈ (holds p v).toList ++ seen p := h
      rcases List.mem_append.1 h with h | h
      · exact List.mem_append_right _ (holds_mem p v e (Option.mem_toList.1 h))
      · exact List.mem_append_right _ (ih h)
    | _ => exact List.mem_append_right _ (ih h)

theorem nodup_tail {o : Op} {p : List Op} (h : (errors (o :: p)).Nodup) : (errors p).Nodup := by
  rw [errors_cons] at h
  exact (List.nodup_append.1 h).2.1

/-- the errors are in different variables -/
theorem holds_inj (p : List Op) (hd : (errors p).Nodup) : ∀ k k' e, holds p k = some e → holds p k' = some e → k = k' := by
  induction p with
  | nil => intro k k' e h; cases h
  | cons o p ih =>
    have ih := ih (nodup_tail hd)
    intro k k' e h h'
    cases o with
    | read v e' =>
      have h : (if k = v then e' else holds p k) = some e := h
      have h' : (if k' = v then e' else holds p k') = some e := h'
      rw [errors_cons] at hd
      have hno : ∀ j, e' = some e → holds p j = some e → False := by
        intro j h1 h2
        subst h1
        exact (List.nodup_append.1 hd).2.2 e (by simp) e (holds_mem p j e h2) rfl
      split_ifs at h h' with h1 h2 h2
      · rw [h1, h2]
      · exact (hno k' h h').elim
      · exact (hno k h' h).elim
      · exact ih k k' e h h'
    | move v w =>
      have h : (if k = w then none else if k = v then holds p w else holds p k) = some e := h
      have h' : (if k' = w then none else if k' = v then holds p w else holds p k') = some e := h'
      split_ifs at h h' with h1 h2 h3 h4 h5 h6
      · rw [h2, h4]
      · exact absurd (ih _ _ e h' h) h3
      · exact absurd (ih _ _ e h h') h1
      · exact ih k k' e h h'
    | assign v w =>
      have h : (if k = w then none else if k = v then holds p w else holds p k) = some e := h
      have h' : (if k' = w then none else if k' = v then holds p w else holds p k') = some e := h'
      split_ifs at h h' with h1 h2 h3 h4 h5 h6
      · rw [h2, h4]
      · exact absurd (ih _ _ e h' h) h3
      · exact absurd (ih _ _ e h h') h1
      · exact ih k k' e h h'
    | look v => exact ih k k' e h h'
    | drop v =>
      have h : (if k = v then none else holds p k) = some e := h
      have h' : (if k' = v then none else holds p k') = some e := h'
      split_ifs at h h'
      exact ih k k' e h h'

/-- an error that was not seen is in a variable that is not checked, and conversely -/
def Unseen (p : List Op) (s : Vars) : Prop := ∀ v x, s v = some x → x.checked = false → x.good = false → x.err ∉ seen p

theorem unseen_step (p : List Op) (s t : Vars) (o : Op) (h : Inv p s) (hu : Unseen p s) (hd : (errors (o :: p)).Nodup) (ht : step s o = .ok t) : Unseen (o :: p) t := by
  intro k y hk hc hg
  cases o with
  | read v e =>
    have ht : (if s v = none then Res.ok (s.set v (some (fresh e))) else .ub) = .ok t := ht
    split at ht
    swap
    · cases ht
    cases ht
    simp only [Vars.set] at hk
    split at hk
    · cases hk
      cases e with
      | none => simp [fresh] at hg
      | some e =>
        intro hs
        rw [errors_cons] at hd
        exact (List.nodup_append.1 hd).2.2 e (by simp) e (seen_mem p e hs) rfl
    · exact hu k y hk hc hg
  | move v w =>
    cases hv : s v with
    | some y => simp [step, hv] at ht
    | none =>
      cases hw : s w with
      | none => simp [step, hv, hw] at ht
      | some x =>
        simp only [step, hv, hw, Res.ok.injEq] at ht
        subst ht
        simp only [Vars.set] at hk
        split_ifs at hk
        · cases hk; cases hc
        · cases hk; exact hu w _ hw hc hg
        · exact hu k y hk hc hg
  | assign v w =>
    cases hv : s v with
    | none => simp [step, hv] at ht
    | some z =>
      cases hw : s w with
      | none => simp [step, hv, hw] at ht
      | some x =>
        simp only [step, hv, hw, Res.ok.injEq] at ht
        subst ht
        simp only [Vars.set] at hk
        split_ifs at hk
        · cases hk; cases hc
        · cases hk; exact hu w _ hw hc hg
        · exact hu k y hk hc hg
  | look v =>
    cases hv : s v with
    | none => simp [step, hv] at ht
    | some x =>
      simp only [step, hv, Res.ok.injEq] at ht
      subst ht
      simp only [Vars.set] at hk
      split at hk
      · cases hk; cases hc
      · rename_i h1
        intro hs
        have hs : y.err ∈ (holds p v).toList ++ seen p := hs
        rcases List.mem_append.1 hs with hs | hs
        · exact h1 (holds_inj p hd k v y.err (h.live k y hk hc hg) (Option.mem_toList.1 hs))
        · exact hu k y hk hc hg hs
  | drop v =>
    cases hv : s v with
    | none => simp [step, hv] at ht
    | some x =>
      have ht : (match s v with
        | some x => if x.checked = false ∧ x.good = false then .abort else .ok (s.set v none)
        | none => .ub) = Res.ok t := ht
      rw [hv] at ht
      simp only at ht
      split at ht
      · cases ht
      cases ht
      simp only [Vars.set] at hk
      split at hk
      · cases hk
      · exact hu k y hk hc hg

theorem unseen_run (os : List Op) : (errors os.reverse).Nodup → ∀ s, run (fun _ => none) os = .ok s → Unseen os.reverse s := by
  induction os using List.reverseRecOn with
  | nil =>
    intro _ s h
    cases h
    intro v x hv
    cases hv
  | append_singleton os o ih =>
    intro hd s h
    rw [run_snoc] at h
    obtain ⟨t, h1, h2⟩ := Res.bind_eq_ok.1 h
    rw [List.reverse_append, List.reverse_singleton, List.singleton_append] at hd ⊢
    exact unseen_step _ _ _ _ (inv_run os t h1) (ih (nodup_tail hd) t h1) hd h2

/-! ### C243 -/

/-- **C243 (in part)**: if a program without assignments of these values comes to the point where they are all destroyed, then it looked at every error. -/
theorem C243_seen_partial (os : List Op) (s : Vars) (h : run (fun _ => none) os = .ok s) (hn : NoAssign os) (hend : ∀ v, s v = none) :
    ∀ e ∈ errors os, e ∈ seen os.reverse := by
  intro e he
  have hi := inv_run os s h
  rcases hi.kept (fun v w hvw => hn v w (List.mem_reverse.1 hvw)) e ((errors_reverse os e).2 he) with h1 | ⟨v, x, h1, -⟩
  · exact h1
  · rw [hend v] at h1; cases h1

/-- **C243**: if a program is stopped (with or without assignments), then at the end of the scope of a variable that holds an error, which happened before and at which the program did not look
(each error has its own number). -/
theorem C243_stop (os : List Op) (o : Op) (s : Vars) (h : run (fun _ => none) os = .ok s) (ha : step s o = .abort) (hd : (errors os).Nodup) :
    ∃ v e, o = .drop v ∧ holds os.reverse v = some e ∧ e ∈ errors os ∧ e ∉ seen os.reverse := by
  have hi := inv_run os s h
  cases o with
  | read v e =>
    have ha : (if s v = none then Res.ok (s.set v (some (fresh e))) else .ub) = .abort := ha
    split at ha <;> cases ha
  | move v w => cases hv : s v <;> cases hw : s w <;> simp [step, hv, hw] at ha
  | assign v w => cases hv : s v <;> cases hw : s w <;> simp [step, hv, hw] at ha
  | look v => cases hv : s v <;> simp [step, hv] at ha
  | drop v =>
    cases hv : s v with
    | none => simp [step, hv] at ha
    | some x =>
      have hx : x.checked = false ∧ x.good = false := by
        by_contra hx
        simp [step, hv, hx] at ha
      have := hi.live v x hv hx.1 hx.2
      refine ⟨v, x.err, rfl, this, (errors_reverse os _).1 (hi.held v _ this).1, ?_⟩
      have hd' : (errors os.reverse).Nodup := by unfold errors at hd ⊢; rw [List.filterMap_reverse, List.nodup_reverse]; exact hd
      exact unseen_run os hd' s h v x hv hx.1 hx.2

/-- after a look, the error in the variable does not stop the program, whatever it is -/
theorem C243_look (s t : Vars) (v : Nat) (hl : step s (.look v) = .ok t) : step t (.drop v) = .ok (t.set v none) := by
  cases hv : s v with
  | none => simp [step, hv] at hl
  | some x =>
    simp only [step, hv, Res.ok.injEq] at hl
    subst hl
    simp [step, Vars.set]

/-- an error is seen, another one is moved and seen, a third one is good -/
def progEx : List Op := [.read 0 (some 7), .look 0, .read 1 (some 8), .move 2 1, .drop 1, .look 2, .read 3 none, .drop 3, .drop 2, .drop 0]

theorem progEx_end : ∃ s, run (fun _ => none) progEx = .ok s ∧ ∀ v, s v = none := by
  refine ⟨_, rfl, ?_⟩
  intro v
  simp only [Vars.set]
  split_ifs <;> rfl

example : ∀ e ∈ [7, 8], e ∈ seen progEx.reverse := by
  obtain ⟨s, h1, h2⟩ := progEx_end
  exact C243_seen_partial progEx s h1 (by intro v w h; simp [progEx] at h) h2

example : (match run (fun _ => none) [.read 0 (some 7)] with | .ok s => step s (.drop 0) | _ => .ub) = .abort := rfl

/-- **C243 is false** for assignments: the error that was in the variable is lost, and nobody looked at it. -/
theorem C243_assign_refuted : ∃ os s, run (fun _ => none) os = .ok s ∧ (∀ v, s v = none) ∧ errors os = [7] ∧ seen os.reverse = [] := by
  refine ⟨[.read 0 (some 7), .read 1 none, .assign 0 1, .drop 1, .look 0, .drop 0], _, rfl, ?_, rfl, rfl⟩
  intro v
  simp only [Vars.set]
  split_ifs <;> rfl

/-- **C243 is false** for structures: if a member is missing the program stops before its caller can look at the result. -/
theorem C243_struct_refuted (s : Vars) (v tmp : Nat) (ms : List (Option Nat)) (h : s tmp = none) (e : Nat) (he : some e ∈ ms) :
    run s (readStruct v tmp ms ++ [.look v, .drop v]) = .abort := by
  have key : ∀ (rest : List Op) (s : Vars), s tmp = none → run s ((ms.flatMap fun e => [Op.read tmp e, Op.drop tmp]) ++ rest) = .abort := by
    intro rest
    induction ms with
    | nil => cases he
    | cons m ms ih =>
      intro s h
      show (step s (.read tmp m) >>= _) = _
      have h1 : step s (.read tmp m) = .ok (s.set tmp (some (fresh m))) := by simp [step, h]
      rw [h1, Res.ok_bind]
      show (step _ (.drop tmp) >>= _) = _
      cases m with
      | some e' =>
        have h2 : step (s.set tmp (some (fresh (some e')))) (.drop tmp) = .abort := by simp [step, Vars.set, fresh]
        rw [h2]; rfl
      | none =>
        have h2 : step (s.set tmp (some (fresh none))) (.drop tmp) = .ok ((s.set tmp (some (fresh none))).set tmp none) := by simp [step, Vars.set, fresh]
        rw [h2, Res.ok_bind]
        exact ih (by simpa using he) _ (by simp [Vars.set])
  unfold readStruct
  rw [List.append_assoc]
  exact key _ _ h

end Verif.Sentry
