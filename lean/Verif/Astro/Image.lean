import Verif.Astro.Img
/-!
# Model of `astro/image.hpp`: margins, flips, shifts, translations, regions

Simplifications: the view forms take a copy first, so they are the same functions on the copied pixels;
the dimensions and the number of pixels of an image fit in `int_t`; `std::rotate`, `std::copy`,
`std::copy_backward`, `std::fill`, `std::swap` by contract on the sequence of a stride (`stride(ix,_)` is row `ix`,
`stride(_,iy)` column `iy`, see C86).
-/
namespace Verif.Astro
open Verif

variable {α : Type}

/-- `enlarge` (`astro/image.hpp:15-27`); `u0..u3` are `upix[0..3]` -/
def enlarge (v : Img α) (u0 u1 u2 u3 : Nat) (d : α) : Res (Img α) :=
  let r := Img.fill (wadd (wadd v.nx u0) u2) (wadd (wadd v.ny u1) u3) d
  for2 v.nx v.ny (fun x y r => do
    let a ← v.get x y
    r.put (wadd x u0) (wadd y u1) a) r

/-- `shrink` (`astro/image.hpp:36-49`); `z` is the value of the elements of a new vector -/
def shrink (v : Img α) (u0 u1 u2 u3 : Nat) (z : α) : Res (Img α) :=
  if wadd u0 u2 ≥ v.nx ∨ wadd u1 u3 ≥ v.ny then .ok (Img.fill 0 0 z)
  else
    let r := Img.fill (wsub (wsub v.nx u0) u2) (wsub (wsub v.ny u1) u3) z
    for2 r.nx r.ny (fun x y r => do
      let a ← v.get (wadd x u0) (wadd y u1)
      r.put x y a) r

/-- `std::swap(r.safe(x,y), r.safe(x',y'))` -/
def Img.swap (r : Img α) (x y x' y' : Nat) : Res (Img α) := do
  let a ← r.get x y
  let b ← r.get x' y'
  let r ← r.put x y b
  r.put x' y' a

/-- `flip_x` (`astro/image.hpp:157-166`) -/
def flipX (v : Img α) : Res (Img α) :=
  for2 v.nx (v.ny / 2) (fun y x r => r.swap y x y (v.ny - 1 - x)) v

/-- `flip_y` (`astro/image.hpp:168-177`) -/
def flipY (v : Img α) : Res (Img α) :=
  for2 (v.nx / 2) v.ny (fun y x r => r.swap y x (v.nx - 1 - y) x) v

/-! ### Strides -/

/-- the elements of `v.raw_stride(ix,_)` -/
def Img.row (v : Img α) (ix : Nat) : Res (List α) := (List.range v.ny).mapM fun y => v.get ix y

/-- the elements of `v.raw_stride(_,iy)` -/
def Img.col (v : Img α) (iy : Nat) : Res (List α) := (List.range v.nx).mapM fun x => v.get x iy

/-- an in-place algorithm that turns the sequence of row `ix` into `f` of it -/
def Img.mapRow (f : List α → List α) (v : Img α) (ix : Nat) : Res (Img α) := do
  let l ← v.row ix
  ((f l).zipIdx).foldlM (fun v a => v.put ix a.2 a.1) v

/-- an in-place algorithm that turns the sequence of column `iy` into `f` of it -/
def Img.mapCol (f : List α → List α) (v : Img α) (iy : Nat) : Res (Img α) := do
  let l ← v.col iy
  ((f l).zipIdx).foldlM (fun v a => v.put a.2 iy a.1) v

/-- `std::rotate(begin, begin + k, end)` -/
def rotate (k : Nat) (l : List α) : List α := l.drop k ++ l.take k

/-- `(-ts) % int_t(n)`: undefined for `n = 0`, and for the one value that cannot be negated -/
def negMod (ts : Int) (n : Nat) : Res Int := if n = 0 ∨ ts = -2 ^ 63 then .ub else .ok (Int.tmod (-ts) n)

/-- `inplace_shift` (`astro/image.hpp:261-281`) and `shift` (`:283-287`) -/
def shift (v : Img α) (tsx tsy : Int) : Res (Img α) := do
  let tx ← negMod tsx v.nx
  let ty ← negMod tsy v.ny
  let tx := if tx < 0 then (v.nx : Int) + tx else tx
  let ty := if ty < 0 then (v.ny : Int) + ty else ty
  let w ← (if ty ≠ 0 then (List.range v.nx).foldlM (Img.mapRow (rotate ty.toNat)) v else .ok v)
  (if tx ≠ 0 then (List.range w.ny).foldlM (Img.mapCol (rotate tx.toNat)) w else .ok w)

/-- `std::copy(begin + t, end, begin)` followed by `std::fill` of the rest, or `std::copy_backward(begin, end + t, end)`
followed by `std::fill` of the beginning (`astro/image.hpp:296-309`, `311-323`) -/
def slide (t : Int) (d : α) (l : List α) : List α :=
  if t > 0 then l.drop t.toNat ++ List.replicate t.toNat d
  else List.replicate (-t).toNat d ++ l.take (l.length - (-t).toNat)

/-- `inplace_translate_integer` (`astro/image.hpp:289-323`) and `translate_integer` (`:325-337`) -/
def translateInteger (v : Img α) (tsx tsy : Int) (d : α) : Res (Img α) := do
  let tx ← negMod tsx v.nx
  let ty ← negMod tsy v.ny
  let w ← (if ty ≠ 0 then (List.range v.nx).foldlM (Img.mapRow (slide ty d)) v else .ok v)
  (if tx ≠ 0 then (List.range w.ny).foldlM (Img.mapCol (slide tx d)) w else .ok w)

/-- `recenter(img, cy, cx, def)` (`astro/image.hpp:353-356`) -/
def recenterKeep (v : Img α) (cy cx : Int) (d : α) : Res (Img α) :=
  translateInteger v ((v.nx / 2 : Nat) - cy) ((v.ny / 2 : Nat) - cx) d

end Verif.Astro
