/-!
# Outcomes of a modelled C++ call

`Res α` makes every way a call can end explicit:

* `ok a`     — returned normally with `a`;
* `abort`    — a `vif_check(...)` failed (`core/error.hpp`, macro `vif_check`):
               the documented error path, the process stops;
* `ub`       — the C++ text has undefined behaviour on this input (out-of-bounds
               access through `safe`, division by zero, signed overflow, ...);
* `diverge`  — the call never returns (a loop that makes no progress).
-/
namespace Verif

inductive Res (α : Type) where
  | ok (a : α)
  | abort
  | ub
  | diverge
deriving Repr, DecidableEq

namespace Res

variable {α β : Type}

def bind : Res α → (α → Res β) → Res β
  | ok a, f => f a
  | abort, _ => abort
  | ub, _ => ub
  | diverge, _ => diverge

def map (f : α → β) : Res α → Res β
  | ok a => ok (f a)
  | abort => abort
  | ub => ub
  | diverge => diverge

instance : Monad Res where
  pure := ok
  bind := bind

@[simp] theorem pure_def (a : α) : (pure a : Res α) = ok a := rfl
@[simp] theorem ok_bind (a : α) (f : α → Res β) : (ok a >>= f) = f a := rfl
@[simp] theorem abort_bind (f : α → Res β) : ((abort : Res α) >>= f) = abort := rfl
@[simp] theorem ub_bind (f : α → Res β) : ((ub : Res α) >>= f) = ub := rfl
@[simp] theorem diverge_bind (f : α → Res β) : ((diverge : Res α) >>= f) = diverge := rfl
@[simp] theorem map_ok (f : α → β) (a : α) : map f (ok a) = ok (f a) := rfl
@[simp] theorem map_abort (f : α → β) : map f (abort : Res α) = abort := rfl
@[simp] theorem map_ub (f : α → β) : map f (ub : Res α) = ub := rfl
@[simp] theorem map_diverge (f : α → β) : map f (diverge : Res α) = diverge := rfl

/-- The call never shows undefined behaviour and always returns or aborts. -/
def Safe : Res α → Prop
  | ok _ => True
  | abort => True
  | ub => False
  | diverge => False

@[simp] theorem safe_ok (a : α) : Safe (ok a) := trivial
@[simp] theorem safe_abort : Safe (abort : Res α) := trivial
@[simp] theorem not_safe_ub : ¬ Safe (ub : Res α) := id
@[simp] theorem not_safe_diverge : ¬ Safe (diverge : Res α) := id

/-- `vif_check(cond, ...)` -/
def check (c : Prop) [Decidable c] : Res Unit := if c then ok () else abort

@[simp] theorem check_pos {c : Prop} [Decidable c] (h : c) : check c = ok () := if_pos h
@[simp] theorem check_neg {c : Prop} [Decidable c] (h : ¬ c) : check c = abort := if_neg h

theorem bind_eq_ok {x : Res α} {f : α → Res β} {b : β} :
    (x >>= f) = ok b ↔ ∃ a, x = ok a ∧ f a = ok b := by
  cases x <;> simp

instance : LawfulMonad Res where
  map_const := rfl
  id_map x := by cases x <;> rfl
  seqLeft_eq x y := by cases x <;> cases y <;> rfl
  seqRight_eq x y := by cases x <;> cases y <;> rfl
  pure_seq f x := by cases x <;> rfl
  bind_pure_comp f x := by cases x <;> rfl
  bind_map x y := by cases x <;> cases y <;> rfl
  pure_bind x f := by rfl
  bind_assoc x f g := by cases x <;> rfl

/-- Unchecked read of element `i` (`v.safe[i]`, `*ptr`): outside the data it is undefined. -/
def rd (l : List α) (i : Nat) : Res α :=
  match l[i]? with
  | some a => ok a
  | none => ub

theorem rd_eq_ok {l : List α} {i : Nat} {a : α} : rd l i = ok a ↔ l[i]? = some a := by
  unfold rd; cases l[i]? <;> simp

theorem rd_lt {l : List α} {i : Nat} (h : i < l.length) : rd l i = ok l[i] := by
  rw [rd_eq_ok]; simp [h]

theorem rd_ub {l : List α} {i : Nat} (h : l.length ≤ i) : rd l i = ub := by
  unfold rd; rw [List.getElem?_eq_none h]

theorem mapM_ok {γ : Type} {f : γ → Res β} {g : γ → β} {l : List γ}
    (h : ∀ i ∈ l, f i = .ok (g i)) : l.mapM f = .ok (l.map g) := by
  induction l with
  | nil => rfl
  | cons a l ih =>
    rw [List.mapM_cons, h a (by simp), Res.ok_bind, ih fun i hi => h i (by simp [hi])]; rfl

theorem mapM_getElem {γ : Type} {f : γ → Res β} {l : List γ} {r : List β}
    (hl : r.length = l.length) (h : ∀ i (hi : i < l.length) (hr : i < r.length),
      f l[i] = .ok r[i]) : l.mapM f = .ok r := by
  induction l generalizing r with
  | nil => cases r with
    | nil => rfl
    | cons => simp at hl
  | cons a l ih =>
    cases r with
    | nil => simp at hl
    | cons b r =>
      rw [List.mapM_cons]
      have := h 0 (by simp) (by simp)
      simp only [List.getElem_cons_zero] at this
      rw [this, Res.ok_bind, ih (r := r) (by simpa using hl)]
      · rfl
      · intro i hi hr
        have := h (i + 1) (by simpa using hi) (by simpa using hr)
        simpa using this

end Res
end Verif
