import Verif.Math.PartialProps
/-!
# `run_dim` on several vectors (C24)
-/
namespace Verif.Math
open Verif Verif.Core Verif.Index
variable {α : Type}

/-- `run_dim(dim, vs..., func)` (`reduce.hpp:543-606`): the calls of `func`, in order, with the index of the slice and the slices. The vectors have the same type here. The sizes are those of the first one. -/
def runDim (dim : Nat) (vs : List (Vec α)) : Res (List (Nat × List (List α))) :=
  match vs with
  | [] => .ub
  | v :: ws => do
    Res.check (∀ w ∈ ws, w.dims = v.dims)
    Res.check (dim < v.dims.length)
    let (np, mpitch) := runDimSizes dim 0 v.dims
    (List.range np).mapM fun i => do
      let s ← (v :: ws).mapM fun w => sliceOf w.data (v.dims.getD dim 0) mpitch i
      .ok (i, s)

/-- C24: one call for each slice, in the order of the remaining indices, with the slices at the same place in all the vectors. -/
theorem C24_run_dim (vs : List (Vec α)) (A B : List Nat) (n : Nat) (hne : vs ≠ []) (hd : ∀ v ∈ vs, v.dims = A ++ n :: B) (hv : ∀ v ∈ vs, v.data.length = v.dims.prod) :
    ∃ calls, runDim A.length vs = .ok calls ∧ calls.length = (A ++ B).prod ∧
      ∀ a b, InRange A a → InRange B b → ∃ ss, calls[rowMajor (A ++ B) (a ++ b)]? = some (rowMajor (A ++ B) (a ++ b), ss) ∧
        List.Forall₂ (fun v s => IsSlice v A B a b n s) vs ss := by
  obtain ⟨v, ws, rfl⟩ := List.exists_cons_of_ne_nil hne
  unfold runDim
  have hdv := hd v (by simp)
  have hlen : A.length < v.dims.length := by rw [hdv]; simp
  have e3 : v.dims.getD A.length 0 = n := by rw [hdv]; simp
  have e4 := (runDimSizes_spec A.length v.dims 0).2 (by omega) A n B hdv (by omega)
  dsimp only
  rw [Res.check_pos (fun w hw => by rw [hd w (by simp [hw]), hdv]), Res.ok_bind, Res.check_pos hlen]
  simp only [Res.ok_bind, e3, e4]
  have key : ∀ (vs : List (Vec α)), (∀ v ∈ vs, v.dims = A ++ n :: B) → (∀ v ∈ vs, v.data.length = v.dims.prod) → ∀ a b, InRange A a → InRange B b →
      ∃ ss, vs.mapM (fun w => sliceOf w.data n B.prod (rowMajor (A ++ B) (a ++ b))) = .ok ss ∧ List.Forall₂ (fun v s => IsSlice v A B a b n s) vs ss := by
    intro vs
    induction vs with
    | nil => intro _ _ a b _ _; exact ⟨[], rfl, .nil⟩
    | cons w ws ih =>
      intro h1 h2 a b ha hb
      obtain ⟨s, s1, s2⟩ := sliceOf_ok w A B a b n (h1 w (by simp)) (h2 w (by simp)) ha hb
      obtain ⟨ss, t1, t2⟩ := ih (fun x hx => h1 x (by simp [hx])) (fun x hx => h2 x (by simp [hx])) a b ha hb
      exact ⟨s :: ss, by rw [List.mapM_cons, s1, Res.ok_bind, t1, Res.ok_bind]; rfl, .cons s2 t2⟩
  have hk := key (v :: ws) hd hv
  obtain ⟨r, r1, r2, r3⟩ := mapM_all (l := List.range (A ++ B).prod)
    (f := fun i => (List.mapM (fun w => sliceOf w.data n B.prod i) (v :: ws)).bind fun s => Res.ok (i, s)) (by
      intro i hi
      obtain ⟨a, b, ha, hb, hab⟩ := split_index A B i (by simpa using hi)
      obtain ⟨ss, h1, -⟩ := hk a b ha hb
      exact ⟨(i, ss), by rw [← hab, h1]; rfl⟩)
  refine ⟨r, r1, by simpa using r2, fun a b ha hb => ?_⟩
  have hi : rowMajor (A ++ B) (a ++ b) < (A ++ B).prod := rowMajor_lt _ _ (List.rel_append ha hb)
  obtain ⟨ss, h1, h2⟩ := hk a b ha hb
  obtain ⟨y, y1, y2⟩ := r3 _ _ (List.getElem?_range hi)
  rw [h1] at y1
  have y1 : (Res.ok (rowMajor (A ++ B) (a ++ b), ss) : Res _) = .ok y := y1
  cases y1
  exact ⟨ss, y2, h2⟩

/-- C24: vectors of different dimensions are refused, and a dimension that does not exist. -/
theorem C24_run_dim_refused (v : Vec α) (ws : List (Vec α)) (dim : Nat) (h : (∃ w ∈ ws, w.dims ≠ v.dims) ∨ v.dims.length ≤ dim) : runDim dim (v :: ws) = .abort := by
  unfold runDim
  dsimp only
  by_cases hc : ∀ w ∈ ws, w.dims = v.dims
  · rw [Res.check_pos hc, Res.ok_bind, Res.check_neg]
    · rfl
    · rcases h with ⟨w, hw, hn⟩ | h
      · exact absurd (hc w hw) hn
      · omega
  · rw [Res.check_neg hc]; rfl

/-- not vacuous: two vectors of dimensions 2x3, along the first one -/
example : runDim 0 [(⟨[1, 2, 3, 4, 5, 6], [2, 3]⟩ : Vec Nat), ⟨[10, 20, 30, 40, 50, 60], [2, 3]⟩] =
    .ok [(0, [[1, 4], [10, 40]]), (1, [[2, 5], [20, 50]]), (2, [[3, 6], [30, 60]])] := by decide
example : runDim 0 [(⟨[1, 2, 3, 4, 5, 6], [2, 3]⟩ : Vec Nat), ⟨[10, 20, 30, 40, 50, 60], [3, 2]⟩] = .abort := by decide

end Verif.Math
