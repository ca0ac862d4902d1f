import Verif.Core.Vec
/-!
# Elementwise operators

Models `core/bits/operators.hpp:76-160` and following (the macros `VECTORIZE` for arithmetic,
comparison and logical operators) and `core/vec.hpp:556-602`. The element operation `f` stands for
any of them. Overloads taking an rvalue vector work in place and return the same object.
-/
namespace Verif.Core.Ops
open Verif Verif.Core
variable {α β γ : Type}

/-- the loop `for (i : range(v)) tv.data.push_back(f(v.safe[i], u.safe[i]))` -/
def pushLoop (f : α → β → γ) (v : List α) (u : List β) : List Nat → List γ → Res (List γ)
  | [], tv => .ok tv
  | i :: is, tv => do
    let a ← Res.rd v i
    let b ← Res.rd u i
    pushLoop f v u is (tv ++ [f a b])

/-- `operator op (const vec&, const vec&)`, `operators.hpp:77-86`. -/
def binop (f : α → β → γ) (v : Vec α) (u : Vec β) : Res (Vec γ) := do
  Res.check (v.dims = u.dims)
  let tv ← pushLoop f v.data u.data (List.range v.data.length) []
  .ok ⟨tv, v.dims⟩

/-- the in-place loop `for (i : range(v)) v.data[i] = f(v.data[i], u.safe[i])` -/
def inplaceLoop (f : α → β → α) (u : List β) : List Nat → List α → Res (List α)
  | [], v => .ok v
  | i :: is, v => do
    let a ← Res.rd v i
    let b ← Res.rd u i
    inplaceLoop f u is (v.set i (f a b))

/-- `operator op (vec&&, const vec&)`, `operators.hpp:96-105`, and `vec::operator op= (const vec&)`
with another vector, `vec.hpp:568-587`. -/
def binopInplace (f : α → β → α) (v : Vec α) (u : Vec β) : Res (Vec α) := do
  Res.check (v.dims = u.dims)
  let d ← inplaceLoop f u.data (List.range v.data.length) v.data
  .ok ⟨d, v.dims⟩

/-- the loop of `v op= v`: the right-hand side is the vector being modified. -/
def selfLoop (f : α → α → α) : List Nat → List α → Res (List α)
  | [], v => .ok v
  | i :: is, v => do
    let a ← Res.rd v i
    let b ← Res.rd v i
    selfLoop f is (v.set i (f a b))

/-- `v op= v`, `vec.hpp:568-587` (`view_same` of two vectors is false). -/
def compoundSelf (f : α → α → α) (v : Vec α) : Res (Vec α) := do
  let d ← selfLoop f (List.range v.data.length) v.data
  .ok ⟨d, v.dims⟩

/-- `operator op (const vec&, const U&)`, `operators.hpp:87-95`; `u op v`, `operators.hpp:115-123`,
is the same with the arguments of `f` exchanged. -/
def scalarOp (f : α → β → γ) (v : Vec α) (u : β) : Res (Vec γ) := do
  let tv ← pushLoop f v.data (List.replicate v.data.length u) (List.range v.data.length) []
  .ok ⟨tv, v.dims⟩

/-- unary operators, `vec.hpp:556-566`. -/
def unop (f : α → α) (v : Vec α) : Vec α := ⟨v.data.map f, v.dims⟩

end Verif.Core.Ops
