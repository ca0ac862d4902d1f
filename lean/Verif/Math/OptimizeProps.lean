import Verif.Math.Optimize
import Mathlib.Tactic.Tauto
import Mathlib.Algebra.Notation.Defs
import Mathlib.Tactic.Common
/-!
# C171: what `minimize_bfgs` promises about its result, whatever GSL and the function do
-/
namespace Verif.Optimize
open Verif
variable {S K : Type}

/-- Spec: `n` steps of the minimiser without error, none of which met the test on the gradient,
lead from `s` to `t`. -/
inductive Steps (G : Gsl S K) (tol : K) : Nat → S → S → Prop
  | refl (s) : Steps G tol 0 s s
  | step {n s t u} : Steps G tol n s t → G.iterate t = some (0, u) → G.test u tol = some continue_ →
      Steps G tol (n + 1) s u

/-- Spec: why the loop stopped at turn `n`, started in `s`, and in which state -/
inductive Stop (G : Gsl S K) (o : Params K) (s : S) : Nat → Option (Bool × S) → Prop
  /-- no progress is possible: a minimum -/
  | stuck {n t u} : Steps G o.ftol n s t → G.iterate t = some (enoprog, u) → Stop G o s (n + 1) (some (true, u))
  /-- the gradient is small enough: a minimum -/
  | small {n t u} : Steps G o.ftol n s t → G.iterate t = some (0, u) → G.test u o.ftol = some success →
      Stop G o s (n + 1) (some (true, u))
  /-- an error of the minimiser -/
  | error {n t u st} : Steps G o.ftol n s t → G.iterate t = some (st, u) → st ≠ 0 → st ≠ enoprog →
      Stop G o s (n + 1) (some (false, u))
  /-- an error of the test -/
  | bad {n t u st} : Steps G o.ftol n s t → G.iterate t = some (0, u) → G.test u o.ftol = some st →
      st ≠ success → st ≠ continue_ → Stop G o s (n + 1) (some (false, u))
  /-- too many turns -/
  | many {n t} : Steps G o.ftol (n + 1) s t → o.maxIter ≤ n + 1 → Stop G o s (n + 1) (some (false, t))
  /-- an exception in the step -/
  | throw {n t} : Steps G o.ftol n s t → G.iterate t = none → Stop G o s (n + 1) none
  /-- an exception in the test -/
  | throwTest {n t u} : Steps G o.ftol n s t → G.iterate t = some (0, u) → G.test u o.ftol = none →
      Stop G o s (n + 1) none

theorem loop_stop (G : Gsl S K) (o : Params K) (s : S) : ∀ fuel n t, Steps G o.ftol n s t →
    o.maxIter + 1 ≤ fuel + n → (n < o.maxIter ∨ n = 0) →
    ∃ m r, loop G o fuel n t = .ok (m, r) ∧ Stop G o s m r ∧ m ≤ max 1 o.maxIter := by
  intro fuel
  induction fuel with
  | zero => intro n t _ h1 h2; omega
  | succ fuel ih =>
    intro n t ht h1 h2
    have hm : n + 1 ≤ max 1 o.maxIter := by omega
    unfold loop
    cases hi : G.iterate t with
    | none => exact ⟨_, _, rfl, .throw ht hi, hm⟩
    | some p =>
      obtain ⟨st, u⟩ := p
      simp only
      by_cases h0 : st = 0
      · subst h0
        rw [if_neg (by simp)]
        cases hte : G.test u o.ftol with
        | none => exact ⟨_, _, rfl, .throwTest ht hi hte, hm⟩
        | some st =>
          simp only
          by_cases hs : st = success
          · subst hs
            rw [if_pos rfl]
            exact ⟨_, _, rfl, .small ht hi hte, hm⟩
          · rw [if_neg hs]
            by_cases hc : st = continue_
            · subst hc
              have hst : Steps G o.ftol (n + 1) s u := .step ht hi hte
              by_cases hn : n + 1 < o.maxIter
              · rw [if_pos ⟨rfl, hn⟩]
                exact ih _ _ hst (by omega) (Or.inl hn)
              · rw [if_neg (by tauto)]
                exact ⟨_, _, rfl, .many hst (by omega), hm⟩
            · rw [if_neg (by tauto)]
              exact ⟨_, _, rfl, .bad ht hi hte hs hc, hm⟩
      · rw [if_pos h0]
        by_cases he : st = enoprog
        · subst he
          exact ⟨_, _, rfl, .stuck ht hi, hm⟩
        · rw [decide_eq_false he]
          exact ⟨_, _, rfl, .error ht hi h0 he, hm⟩

/-- **C171 (loop).** The loop ends after at least one and at most `max(1, max_iter)` turns, for one of
the reasons of `Stop`. -/
theorem C171_loop (G : Gsl S K) (o : Params K) (s : S) :
    ∃ n r, loop G o (o.maxIter + 1) 0 s = .ok (n, r) ∧ Stop G o s n r ∧ 1 ≤ n ∧ n ≤ max 1 o.maxIter := by
  obtain ⟨n, r, h1, h2, h3⟩ := loop_stop G o s (o.maxIter + 1) 0 s (.refl s) (by omega) (Or.inr rfl)
  exact ⟨n, r, h1, h2, by cases h2 <;> omega, h3⟩

/-- the vector of parameters in the minimiser keeps its size -/
def Sized (G : Gsl S K) (n : Nat) : Prop := ∀ s, (G.x s).length = n

theorem mapM_rd (l : List K) (n : Nat) (h : l.length = n) :
    ((List.range n).mapM fun i => Res.rd l i) = .ok l := by
  apply Res.mapM_getElem (by simpa using h)
  intro i hi hr
  simp only [List.getElem_range]
  exact Res.rd_lt hr

/-- **C171.** `minimize_bfgs` always returns. If nothing throws, it returns the parameters and the
value held by the minimiser where the loop stopped; it reports success exactly when the loop stopped
because no progress was possible or because the gradient is small there. If anything throws, the
result is not a success, the value is NaN and the parameters are zeros. In all cases each block of
memory is given back once. -/
theorem C171_result [Zero K] (G : Gsl S K) (o : Params K) (start : List K) (hx : Sized G start.length) :
    ∃ r tr, minimize G o start = .ok (r, tr) ∧ r.params.length = start.length ∧ r.niter ≤ max 1 o.maxIter ∧
      (tr.count .allocX = tr.count .freeX ∧ tr.count .allocM = tr.count .freeM ∧
        tr.count .freeX ≤ 1 ∧ tr.count .freeM ≤ 1) ∧
      ((∃ s, G.allocX ∧ G.allocM ∧ G.set start o.initialStep o.ftol = some s ∧ ∃ suc t,
          Stop G o s r.niter (some (suc, t)) ∧ r = ⟨suc, G.x t, some (G.f t), r.niter⟩) ∨
        ((¬ (G.allocX ∧ G.allocM ∧ (G.set start o.initialStep o.ftol).isSome) ∧ r.niter = 0 ∨
            ∃ s, G.set start o.initialStep o.ftol = some s ∧ Stop G o s r.niter none) ∧
          r = ⟨false, List.replicate start.length 0, none, r.niter⟩)) := by
  unfold minimize
  by_cases h1 : G.allocX
  swap
  · rw [if_pos h1]
    exact ⟨_, _, rfl, by simp [failed], by simp [failed], by decide, Or.inr ⟨Or.inl ⟨by tauto, rfl⟩, rfl⟩⟩
  rw [if_neg (by simpa using h1)]
  by_cases h2 : G.allocM
  swap
  · rw [if_pos h2]
    exact ⟨_, _, rfl, by simp [failed], by simp [failed], by decide, Or.inr ⟨Or.inl ⟨by tauto, rfl⟩, rfl⟩⟩
  rw [if_neg (by simpa using h2)]
  cases hs : G.set start o.initialStep o.ftol with
  | none =>
    exact ⟨_, _, rfl, by simp [failed], by simp [failed], by decide, Or.inr ⟨Or.inl ⟨by simp, rfl⟩, rfl⟩⟩
  | some s =>
    obtain ⟨n, r, e1, e2, -, e3⟩ := C171_loop G o s
    simp only
    rw [e1, Res.ok_bind]
    cases r with
    | none =>
      exact ⟨_, _, rfl, by simp [failed], e3, by decide, Or.inr ⟨Or.inr ⟨s, rfl, e2⟩, rfl⟩⟩
    | some p =>
      obtain ⟨suc, t⟩ := p
      simp only
      rw [mapM_rd _ _ (hx t), Res.ok_bind]
      exact ⟨_, _, rfl, hx t, e3, by decide, Or.inl ⟨s, h1, h2, rfl, suc, t, e2, rfl⟩⟩

/-- **C171 (success).** A reported success means that the last step of the minimiser said that no
progress is possible, or that the test on the gradient was met, at the returned parameters. -/
theorem C171_success [Zero K] (G : Gsl S K) (o : Params K) (start : List K) (hx : Sized G start.length)
    {r : Result K} {tr : List Event} (h : minimize G o start = .ok (r, tr)) (hs : r.success = true) :
    ∃ t u, r.params = G.x u ∧ r.value = some (G.f u) ∧
      (G.iterate t = some (enoprog, u) ∨ G.iterate t = some (0, u) ∧ G.test u o.ftol = some success) := by
  obtain ⟨r', tr', h1, -, -, -, h2⟩ := C171_result G o start hx
  rw [h1] at h
  cases h
  rcases h2 with ⟨s, -, -, -, suc, u, hst, he⟩ | ⟨-, he⟩
  · rw [he] at hs ⊢
    simp only at hs
    subst hs
    generalize hq : some (true, u) = q at hst
    generalize r.niter = m at hst
    cases hst with
    | stuck a b => cases hq; exact ⟨_, _, rfl, rfl, Or.inl b⟩
    | small a b c => cases hq; exact ⟨_, _, rfl, rfl, Or.inr ⟨b, c⟩⟩
    | _ => cases hq
  · rw [he] at hs; cases hs

/-- **C171 (adapters).** A function of `n` parameters that returns its value followed by its `n`
derivatives is handed to GSL as such; one that returns less has undefined behaviour as soon as the
derivatives are asked. -/
theorem C171_adapter (func : List K → List K) (x : List K) :
    (∀ f g, func x = f :: g → g.length = x.length →
      valueOf func x = .ok f ∧ gradOf func x = .ok g ∧ bothOf func x = .ok (f, g)) ∧
    ((func x).length ≤ x.length → x ≠ [] → gradOf func x = .ub ∧ bothOf func x = .ub) := by
  constructor
  · intro f g h hg
    have e : ((List.range x.length).mapM fun i => Res.rd (f :: g) (i + 1)) = .ok g := by
      apply Res.mapM_getElem (by simpa using hg)
      intro i hi hr
      simp only [List.getElem_range]
      rw [Res.rd_lt (by simpa using hr)]; rfl
    refine ⟨?_, ?_, ?_⟩
    · rw [valueOf, h]; rfl
    · rw [gradOf, h]; exact e
    · rw [bothOf, h, e]; rfl
  · intro h hx
    have key : ∀ (l : List Nat) (r : List K), (∃ i ∈ l, r.length ≤ i + 1) →
        (l.mapM fun i => Res.rd r (i + 1)) = .ub := by
      intro l r
      induction l with
      | nil => simp
      | cons a l ih =>
        intro hl
        rw [List.mapM_cons]
        by_cases ha : r.length ≤ a + 1
        · rw [Res.rd_ub ha]; rfl
        · rw [Res.rd_lt (by omega), Res.ok_bind, ih]
          · rfl
          · obtain ⟨i, hi, hr⟩ := hl
            rcases List.mem_cons.1 hi with rfl | hi
            · exact absurd hr ha
            · exact ⟨i, hi, hr⟩
    have hp : 0 < x.length := List.length_pos_iff.2 hx
    have e := key (List.range x.length) (func x) ⟨x.length - 1, by simp; omega, by omega⟩
    refine ⟨e, ?_⟩
    rw [bothOf, e]
    cases hf : Res.rd (func x) 0 with
    | ok a => rfl
    | ub => rfl
    | abort => unfold Res.rd at hf; split at hf <;> cases hf
    | diverge => unfold Res.rd at hf; split at hf <;> cases hf

/-- a minimiser of `(x - 3)^2` by steps of one, as an example -/
def exGsl : Gsl Int Int where
  allocX := true
  allocM := true
  set := fun l _ _ => some (l.headD 0)
  iterate := fun s => if s = 3 then some (enoprog, s) else some (0, if s < 3 then s + 1 else s - 1)
  test := fun s tol => some (if (2 * (s - 3)).natAbs < tol then success else continue_)
  x := fun s => [s]
  f := fun s => (s - 3) * (s - 3)

example : Sized exGsl 1 := fun _ => rfl

example : minimize exGsl ⟨1, 1, 1000⟩ [0] = .ok (⟨true, [3], some 0, 3⟩, [.allocX, .allocM, .freeM, .freeX]) ∧
    minimize exGsl ⟨1, 1, 2⟩ [0] = .ok (⟨false, [2], some 1, 2⟩, [.allocX, .allocM, .freeM, .freeX]) := by
  decide +kernel

/-- **C171 (refuted).** "At most `max_iter` steps" is false: with `max_iter = 0` one step is made. -/
theorem C171_zero_refuted : ∃ (G : Gsl Int Int) (o : Params Int) (r : Result Int) (tr : List Event),
    o.maxIter = 0 ∧ minimize G o [0] = .ok (r, tr) ∧ r.niter = 1 ∧ r.params ≠ [0] :=
  ⟨exGsl, ⟨1, 1, 0⟩, ⟨false, [1], some 4, 1⟩, [.allocX, .allocM, .freeM, .freeX], rfl, by decide +kernel, rfl, by decide⟩

end Verif.Optimize
