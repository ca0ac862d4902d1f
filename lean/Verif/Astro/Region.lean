import Verif.Astro.Img
/-!
# Model of `astro/image.hpp`: regions of an image

`int_t` values are `Int`, with undefined behaviour when an operation leaves the 64-bit range.
-/
namespace Verif.Astro
open Verif

variable {α : Type}

/-- result of a signed 64-bit operation -/
def s64 (a : Int) : Res Int := if -2 ^ 63 ≤ a ∧ a < 2 ^ 63 then .ok a else .ub

/-- a value converted to `uint_t` -/
def u64 (a : Int) : Nat := (a % (W64 : Int)).toNat

/-- `subregion(v, reg, rv, rr)` (`astro/image.hpp:63-109`). `sreg[2]` and `sreg[3]` are computed but never used; they are
left out. The last two lines mix `uint_t` and `int_t`, so they are computed modulo 2^64. -/
def subregion (nvx nvy : Nat) (reg : List Int) : Res (List Nat × List Nat) :=
  match reg with
  | [r0, r1, r2, r3] => do
    let dx ← s64 (r2 - r0)
    let _ ← s64 (dx + 1)
    let dy ← s64 (r3 - r1)
    let ny ← s64 (dy + 1)
    if r0 ≥ nvx ∨ r2 < 0 ∨ r0 > r2 ∨ r1 ≥ nvy ∨ r3 < 0 ∨ r1 > r3 then .ok ([], [])
    else
      let v0 := if r0 < 0 then 0 else r0
      let s0 := if r0 < 0 then 0 - r0 else 0
      let v2 := if r2 ≥ nvx then (nvx : Int) - 1 else r2
      let v1 := if r1 < 0 then 0 else r1
      let s1 := if r1 < 0 then 0 - r1 else 0
      let v3 := if r3 ≥ nvy then (nvy : Int) - 1 else r3
      let nnx := v2 - v0 + 1
      let nny := v3 - v1 + 1
      let npix := nnx.toNat * nny.toNat
      .ok ((List.range npix).map fun i => u64 ((i % nny.toNat : Nat) + v1 + ((i / nny.toNat : Nat) + v0) * nvy),
           (List.range npix).map fun i => u64 ((i % nny.toNat : Nat) + s1 + ((i / nny.toNat : Nat) + s0) * ny))
  | _ => .abort

/-- `replicate(def, nx, ny)` with signed sizes: they are converted to `uint_t` and so is their product
(`core/vec.hpp:207-214`); sizes that no memory can hold throw -/
def replicateS (nx ny : Int) (d : α) : Res (Img α) :=
  let n := (u64 nx * u64 ny) % W64
  if n ≥ 2 ^ 63 then .abort else .ok ⟨u64 nx, u64 ny, List.replicate n d⟩

/-- `dst.safe[di] = src.safe[si]` for two index vectors of the same size (element by element, C09) -/
def copyIds (dst src : List α) : List (Nat × Nat) → Res (List α)
  | [] => .ok dst
  | (di, si) :: l => do
    let a ← Res.rd src si
    if di < dst.length then copyIds (dst.set di a) src l else .ub

/-- `subregion(v, reg, def)` (`astro/image.hpp:111-124`) -/
def subregionImg (v : Img α) (reg : List Int) (d : α) : Res (Img α) := do
  let (rr, rs) ← subregion v.nx v.ny reg
  match reg with
  | [r0, r1, r2, r3] => do
    let nx := r2 - r0 + 1
    let ny := r3 - r1 + 1
    let sub ← replicateS nx ny d
    let px ← copyIds sub.px v.px (rs.zip rr)
    .ok { sub with px := px }
  | _ => .abort

/-- `recenter(img, cy, cx, dims, def)` (`astro/image.hpp:339-352`); the upper limits are computed in `uint_t` and
converted back -/
def recenter (v : Img α) (cy cx : Int) (d0 d1 : Nat) (d : α) : Res (Img α) := do
  let ty0 ← s64 (cy - ((d0 / 2 : Nat) : Int))
  let tx0 ← s64 (cx - ((d1 / 2 : Nat) : Int))
  let ty1 ← s64 (ty0 + d0 - 1)
  let tx1 ← s64 (tx0 + d1 - 1)
  let (ip, it) ← subregion v.nx v.ny [ty0, tx0, ty1, tx1]
  let px ← copyIds (Img.fill d0 d1 d).px v.px (it.zip ip)
  .ok ⟨d0, d1, px⟩

end Verif.Astro
