import Verif.Astro.Image
import Verif.Astro.Region
import Verif.Astro.Filter
import Mathlib.Analysis.SpecialFunctions.Complex.Log
/-!
# Model of `math/fourier.hpp` and of the convolutions of `astro/image.hpp` that use it

The arithmetic is exact: `double` is `ℝ`, `std::complex<double>` is `ℂ`. FFTW is modelled by its documentation: the plan
of a real array of `nx` by `ny` elements writes the `ny/2+1` first columns of the transform, row after row without gaps, and the
plan of the way back reads them in that layout and takes the other columns from the Hermitian symmetry; neither divides by
the number of elements. A plan for an array without elements cannot be made, and executing it is undefined.
-/
namespace Verif.Astro
open Verif

noncomputable section

/-- `exp(-2πi m/n)` -/
def tw (n : Nat) (m : ℤ) : ℂ := Complex.exp (-(2 * Real.pi * Complex.I * (m / n)))

/-- element `(x,y)` of an array that has one -/
def px0 {α : Type} [Zero α] (v : Img α) (x y : Nat) : α := (v.at x y).getD 0

/-- the discrete Fourier transform of a real array -/
def dft (v : Img ℝ) (k l : Nat) : ℂ :=
  ∑ p ∈ Finset.range v.nx ×ˢ Finset.range v.ny, ((px0 v p.1 p.2 : ℝ) : ℂ) * (tw v.nx (k * p.1) * tw v.ny (l * p.2))

/-- `fft(v)` (`math/fourier.hpp:20-44`, the same code in `convolver2d`, `astro/image.hpp:582-614`): the result is a new array of
the dimensions of `v`, of which the plan writes the beginning -/
def fft (v : Img ℝ) : Res (Img ℂ) :=
  if v.nx = 0 ∨ v.ny = 0 then .ub
  else .ok ⟨v.nx, v.ny, (List.range (v.nx * v.ny)).map fun j =>
    if j < v.nx * (v.ny / 2 + 1) then dft v (j / (v.ny / 2 + 1)) (j % (v.ny / 2 + 1)) else 0⟩

/-- element `(k,l)` of the transform that is stored in `v`, `l ≤ ny/2` -/
def half (v : Img ℂ) (k l : Nat) : ℂ := v.px.getD (k * (v.ny / 2 + 1) + l) 0

/-- element `(k,l)` of the whole transform -/
def herm (v : Img ℂ) (k l : Nat) : ℂ :=
  if l ≤ v.ny / 2 then half v k l else (starRingEnd ℂ) (half v ((v.nx - k) % v.nx) (v.ny - l))

/-- `ifft(v)` (`math/fourier.hpp:71-99`); the sum is real for the transform of a real array -/
def ifft (v : Img ℂ) : Res (Img ℝ) :=
  if v.nx = 0 ∨ v.ny = 0 then .ub
  else .ok ⟨v.nx, v.ny, (List.range (v.nx * v.ny)).map fun j =>
    (∑ p ∈ Finset.range v.nx ×ˢ Finset.range v.ny,
      herm v p.1 p.2 * (tw v.nx (-(p.1 * (j / v.ny : Nat))) * tw v.ny (-(p.2 * (j % v.ny : Nat))))).re⟩

/-- product of two arrays, element by element (dimensions are checked, C08) -/
def mulI (a b : Img ℂ) : Res (Img ℂ) :=
  if a.nx = b.nx ∧ a.ny = b.ny then .ok ⟨a.nx, a.ny, List.zipWith (· * ·) a.px b.px⟩ else .abort

/-- quotient of an array and a number, element by element -/
def divI (a : Img ℝ) (n : Nat) : Img ℝ := ⟨a.nx, a.ny, a.px.map (· / n)⟩

/-- `convolve2d_prepare_kernel(map, kernel, hsx, hsy)` (`astro/image.hpp:460-481`): the transform of the kernel, `hsx`, `hsy`.
`-hsx` is computed in `uint_t` and converted to `int_t`. Only the dimensions `mx`, `my` of the map are used. -/
def prepareKernel (mx my : Nat) (kernel : Img ℝ) : Res (Img ℂ × Nat × Nat) := do
  Res.check (kernel.nx % 2 = 1 ∧ kernel.ny % 2 = 1)
  let hsx := kernel.nx / 2
  let hsy := kernel.ny / 2
  let tkernel ← enlarge kernel 0 0 (wsub mx 1) (wsub my 1) 0
  let tkernel ← shift tkernel (-(hsx : Int)) (-(hsy : Int))
  let f ← fft tkernel
  .ok (f, hsx, hsy)

/-- the common end of the convolutions: `shrink(ifft(cimg), {{hsx, hsy, hsx, hsy}})/cimg.size()` -/
def finish (cimg : Img ℂ) (hsx hsy : Nat) : Res (Img ℝ) := do
  let r ← ifft cimg
  let r ← shrink r hsx hsy hsx hsy 0
  .ok (divI r cimg.px.length)

/-- `convolve2d(map, kernel, hsx, hsy)` with a kernel in Fourier space (`astro/image.hpp:483-501`) -/
def convolveF (map : Img ℝ) (kernel : Img ℂ) (hsx hsy : Nat) : Res (Img ℝ) := do
  let tmap ← enlarge map hsx hsy hsx hsy 0
  let f ← fft tmap
  let cimg ← mulI f kernel
  finish cimg hsx hsy

/-- `tkernel(ix,iy) = kernel(px,py)` for index vectors of `hsx` and `hsy` elements -/
def copyBlock (t k : Img ℝ) (hsx hsy : Nat) (ix px iy py : Nat → Nat) : Res (Img ℝ) :=
  for2 hsx hsy (fun i j t => do
    let a ← k.get (px i) (py j)
    t.put (ix i) (iy j) a) t

/-- `convolve2d(map, kernel)` (`astro/image.hpp:503-545`) -/
def convolve2d (map kernel : Img ℝ) : Res (Img ℝ) := do
  let hsx := kernel.nx / 2
  let hsy := kernel.ny / 2
  let tmap ← enlarge map hsx hsy hsx hsy 0
  let t := Img.fill tmap.nx tmap.ny (0 : ℝ)
  let t ← copyBlock t kernel hsx hsy (fun i => i) (fun i => hsx + i) (fun j => j) (fun j => hsy + j)
  let t ← copyBlock t kernel hsx hsy (fun i => tmap.nx - 1 - i) (fun i => hsx - 1 - i) (fun j => j) (fun j => hsy + j)
  let t ← copyBlock t kernel hsx hsy (fun i => i) (fun i => hsx + i) (fun j => tmap.ny - 1 - j) (fun j => hsy - 1 - j)
  let t ← copyBlock t kernel hsx hsy (fun i => tmap.nx - 1 - i) (fun i => hsx - 1 - i) (fun j => tmap.ny - 1 - j) (fun j => hsy - 1 - j)
  let f ← fft tmap
  let g ← fft t
  let cimg ← mulI f g
  finish cimg hsx hsy

/-! ### `convolver2d` -/

/-- `convolver2d` (`astro/image.hpp:549-558`): `kernel_fourier` and `plan` (the dimensions for which the plans were made) are
unset before the first convolution -/
structure Convolver where
  kernel : Img ℝ
  fourier : Option (Img ℂ)
  hsx : Nat
  hsy : Nat
  tmap : Img ℝ
  cyclic : Bool

/-- `convolver2d(k)` (`astro/image.hpp:560-563`) -/
def Convolver.new (k : Img ℝ) : Res Convolver := do
  Res.check (k.nx % 2 = 1 ∧ k.ny % 2 = 1)
  .ok ⟨k, none, 0, 0, ⟨0, 0, []⟩, false⟩

/-- the transform of the kernel, made in the first call (`astro/image.hpp:634-662`) -/
def Convolver.setup (c : Convolver) (mx my : Nat) : Res Convolver :=
  match c.fourier with
  | some _ => .ok c
  | none =>
    if c.cyclic then do
      let t ← recenter c.kernel ((c.kernel.nx / 2 : Nat) : Int) ((c.kernel.ny / 2 : Nat) : Int) mx my 0
      let t ← shift t (-((mx / 2 : Nat) : Int)) (-((my / 2 : Nat) : Int))
      let f ← fft t
      .ok { c with hsx := 0, hsy := 0, fourier := some f }
    else do
      let hsx := c.kernel.nx / 2
      let hsy := c.kernel.ny / 2
      let t ← enlarge c.kernel 0 0 (wsub mx 1) (wsub my 1) 0
      let t ← shift t (-(hsx : Int)) (-(hsy : Int))
      let f ← fft t
      .ok { c with hsx := hsx, hsy := hsy, fourier := some f, tmap := Img.fill f.nx f.ny 0 }

/-- the image in the middle of `tmap`, and the padding around it (`astro/image.hpp:668-691`) -/
def padMap (tmap map : Img ℝ) (hsx hsy : Nat) : Res (Img ℝ) := do
  let t ← for2 map.nx map.ny (fun ix iy t => do
    let a ← map.get ix iy
    t.put (hsx + ix) (hsy + iy) a) tmap
  let t ← (List.range hsx).foldlM (fun t ix => do
    let t ← (List.range tmap.nx).foldlM (fun (t : Img ℝ) iy => t.put ix iy 0) t
    (List.range tmap.nx).foldlM (fun (t : Img ℝ) iy => t.put (tmap.nx - hsx + ix) iy 0) t) t
  (List.range map.nx).foldlM (fun t ix => do
    let t ← (List.range hsy).foldlM (fun (t : Img ℝ) iy => t.put (hsx + ix) iy 0) t
    (List.range hsy).foldlM (fun (t : Img ℝ) iy => t.put (hsx + ix) (tmap.ny - hsy + iy) 0) t) t

/-- the product with the transform of the kernel, and back. The plans are those of the first call, so an array of other
dimensions is not transformed as a whole; this is left undefined. -/
def throughFourier (f : Img ℂ) (t : Img ℝ) : Res (Img ℝ) :=
  if t.nx = f.nx ∧ t.ny = f.ny then do
    let g ← fft t
    let cimg ← mulI g f
    ifft cimg
  else .ub

/-- `convolver2d::inplace_convolve(map)` (`astro/image.hpp:633-711`) -/
def Convolver.run (c : Convolver) (map : Img ℝ) : Res (Convolver × Img ℝ) := do
  let c ← c.setup map.nx map.ny
  match c.fourier with
  | none => .ub
  | some f =>
    if c.cyclic then do
      let r ← throughFourier f map
      .ok (c, r)
    else do
      let t ← padMap c.tmap map c.hsx c.hsy
      let t ← throughFourier f t
      let r ← for2 map.nx map.ny (fun ix iy r => do
        let a ← t.get (c.hsx + ix) (c.hsy + iy)
        r.put ix iy (a / (f.px.length : ℝ))) map
      .ok ({ c with tmap := t }, r)

/-- a sequence of calls of `convolve` on one object -/
def Convolver.runs (c : Convolver) : List (Img ℝ) → Res (List (Img ℝ))
  | [] => .ok []
  | m :: l => do
    let (c, r) ← c.run m
    let rs ← c.runs l
    .ok (r :: rs)

/-! ### `make_transition_kernel` -/

/-- `make_transition_kernel(from, to)` (`astro/image.hpp:739-749`): the rows `0..dims[1]/2` of the arrays that hold the transforms
are divided, element by element; `_-n` selects the rows up to `n` and fails if there is no row `n` (C05). Division by zero is
left out: the theorems assume the transform of `from` has no zero. -/
def transitionKernel (src dst : Img ℝ) : Res (Img ℝ) := do
  let a ← fft src
  let b ← fft dst
  Res.check (a.ny / 2 < a.nx ∧ a.ny / 2 < b.nx ∧ a.ny = b.ny)
  let n := (a.ny / 2 + 1) * a.ny
  let q : Img ℂ := ⟨b.nx, b.ny, List.zipWith (· / ·) (b.px.take n) (a.px.take n) ++ b.px.drop n⟩
  let r ← ifft q
  shift r ((a.nx / 2 : Nat) : Int) ((a.ny / 2 : Nat) : Int)

end

end Verif.Astro
