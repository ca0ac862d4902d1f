import Verif.Astro.TranslateCubic
import Verif.Math.SplineProps
import Mathlib.Tactic.IntervalCases
/-!
# C172: translation of an image with cubic splines
-/
namespace Verif.Psf
open Verif Verif.Astro Verif.Spline

section
variable {K : Type}

/-- Spec: the image shows the function `f` on its pixels -/
def Shows (v : Img K) (f : Nat → Nat → K) : Prop := v.WF ∧ ∀ x y, x < v.nx → y < v.ny → v.at x y = some (f x y)

theorem getRow_ok [Field K] {v : Img K} {f : Nat → Nat → K} (h : Shows v f) {x : Nat} (hx : x < v.nx) :
    getRow v x = .ok ((List.range v.ny).map (f x)) :=
  Res.mapM_ok fun _ hy => get_at (h.2 x _ hx (by simpa using hy))

theorem getCol_ok [Field K] {v : Img K} {f : Nat → Nat → K} (h : Shows v f) {y : Nat} (hy : y < v.ny) :
    getCol v y = .ok ((List.range v.nx).map fun x => f x y) :=
  Res.mapM_ok fun _ hx => get_at (h.2 _ y (by simpa using hx) hy)

theorem putRow_ok {v : Img K} {f : Nat → Nat → K} (h : Shows v f) {x : Nat} (hx : x < v.nx) (g : Nat → K) :
    ∃ w, putRow v x ((List.range v.ny).map g) = .ok w ∧ w.nx = v.nx ∧ w.ny = v.ny ∧
      Shows w fun x' y' => if x' = x then g y' else f x' y' := by
  obtain ⟨w, h1, h2, h3, h4, h5⟩ := foldlM_range (n := v.ny)
    (f := fun v' y => do let a ← Res.rd ((List.range v.ny).map g) y; v'.put x y a)
    (fun k w => w.WF ∧ w.nx = v.nx ∧ w.ny = v.ny ∧ ∀ x' y', x' < v.nx → y' < v.ny →
      w.at x' y' = some (if x' = x ∧ y' < k then g y' else f x' y')) v
    ⟨h.1, rfl, rfl, fun x' y' hx' hy' => by simpa using h.2 x' y' hx' hy'⟩ (by
      rintro k w hk ⟨i1, i2, i3, i4⟩
      rw [Res.rd_lt (by simpa using hk), Res.ok_bind]
      obtain ⟨w', w1, w2, w3, w4, w5⟩ := put_spec i1 (x := x) (y := k) (by omega) (by omega) (g k)
      refine ⟨w', by simpa using w1, w2, w3.trans i2, w4.trans i3, ?_⟩
      intro x' y' hx' hy'
      rw [w5]
      by_cases e : x' = x ∧ y' = k
      · rw [if_pos e, if_pos ⟨e.1, by omega⟩, e.2]
      · rw [if_neg e, i4 x' y' hx' hy']
        congr 1
        by_cases e2 : x' = x ∧ y' < k
        · rw [if_pos e2, if_pos ⟨e2.1, by omega⟩]
        · rw [if_neg e2, if_neg (by omega)])
  refine ⟨w, h1, h3, h4, h2, ?_⟩
  intro x' y' hx' hy'
  rw [h5 x' y' (by omega) (by omega)]
  congr 1
  simp only
  by_cases e : x' = x
  · rw [if_pos ⟨e, by omega⟩, if_pos e]
  · rw [if_neg (by tauto), if_neg e]

theorem putCol_ok {v : Img K} {f : Nat → Nat → K} (h : Shows v f) {y : Nat} (hy : y < v.ny) (g : Nat → K) :
    ∃ w, putCol v y ((List.range v.nx).map g) = .ok w ∧ w.nx = v.nx ∧ w.ny = v.ny ∧
      Shows w fun x' y' => if y' = y then g x' else f x' y' := by
  obtain ⟨w, h1, h2, h3, h4, h5⟩ := foldlM_range (n := v.nx)
    (f := fun v' x => do let a ← Res.rd ((List.range v.nx).map g) x; v'.put x y a)
    (fun k w => w.WF ∧ w.nx = v.nx ∧ w.ny = v.ny ∧ ∀ x' y', x' < v.nx → y' < v.ny →
      w.at x' y' = some (if y' = y ∧ x' < k then g x' else f x' y')) v
    ⟨h.1, rfl, rfl, fun x' y' hx' hy' => by simpa using h.2 x' y' hx' hy'⟩ (by
      rintro k w hk ⟨i1, i2, i3, i4⟩
      rw [Res.rd_lt (by simpa using hk), Res.ok_bind]
      obtain ⟨w', w1, w2, w3, w4, w5⟩ := put_spec i1 (x := k) (y := y) (by omega) (by omega) (g k)
      refine ⟨w', by simpa using w1, w2, w3.trans i2, w4.trans i3, ?_⟩
      intro x' y' hx' hy'
      rw [w5]
      by_cases e : x' = k ∧ y' = y
      · rw [if_pos e, if_pos ⟨e.2, by omega⟩, e.1]
      · rw [if_neg e, i4 x' y' hx' hy']
        congr 1
        by_cases e2 : y' = y ∧ x' < k
        · rw [if_pos e2, if_pos ⟨e2.1, by omega⟩]
        · rw [if_neg e2, if_neg (by omega)])
  refine ⟨w, h1, h3, h4, h2, ?_⟩
  intro x' y' hx' hy'
  rw [h5 x' y' (by omega) (by omega)]
  congr 1
  simp only
  by_cases e : y' = y
  · rw [if_pos ⟨e, by omega⟩, if_pos e]
  · rw [if_neg (by tauto), if_neg e]

variable [Field K] [LinearOrder K] [FloorRing K]

/-- the value of the interpolation -/
noncomputable def val (l : List K) (t : K) : K := match splineReg l t with | .ok a => a | _ => 0

theorem splineReg_val {l : List K} (h : 2 ≤ l.length) (t : K) : splineReg l t = .ok (val l t) := by
  have : ∃ a, splineReg l t = .ok a := by
    unfold splineReg
    rw [Res.check_pos h, Res.ok_bind]
    simp only
    split_ifs <;> exact ⟨_, rfl⟩
  obtain ⟨a, ha⟩ := this
  rw [val, ha]

theorem splineRegV_val {l ts : List K} (h : 2 ≤ l.length) : splineRegV l ts = .ok (ts.map (val l)) := by
  unfold splineRegV
  rw [Res.check_pos h, Res.ok_bind]
  exact Res.mapM_ok fun t _ => splineReg_val h t

theorem translateBicubic_ok {v : Img K} {f : Nat → Nat → K} (h : Shows v f) (h1 : 2 ≤ v.nx) (h2 : 2 ≤ v.ny) (dx dy d : K) :
    ∃ w, translateBicubic v dx dy d = .ok w ∧ w.nx = v.nx ∧ w.ny = v.ny ∧
      Shows w fun x y => val ((List.range v.nx).map fun x' => val ((List.range v.ny).map (f x')) ((y : K) - dy)) ((x : K) - dx) := by
  obtain ⟨w, a1, a2, a3, a4⟩ := foldlM_range (n := v.nx)
    (f := fun w x => do
      let r ← getRow w x
      let s ← splineRegV r ((List.range v.ny).map fun y => ((y : Nat) : K) - dy)
      putRow w x s)
    (fun k w => w.nx = v.nx ∧ w.ny = v.ny ∧
      Shows w fun x y => if x < k then val ((List.range v.ny).map (f x)) ((y : K) - dy) else f x y) v
    ⟨rfl, rfl, by simpa using h⟩ (by
      rintro k w hk ⟨i1, i2, i3⟩
      rw [getRow_ok i3 (by omega), Res.ok_bind, splineRegV_val (by simp; omega), Res.ok_bind]
      obtain ⟨w', w1, w2, w3, w4⟩ := putRow_ok i3 (x := k) (by omega)
        (fun y => val ((List.range v.ny).map (f k)) ((y : K) - dy))
      rw [i2] at w1 ⊢
      simp only [lt_irrefl, if_false, List.map_map, Function.comp_def]
      refine ⟨w', w1, w2.trans i1, w3.trans i2, w4.1, ?_⟩
      intro x y hx hy
      rw [w4.2 x y hx hy]
      simp only
      by_cases e : x = k
      · subst e; rw [if_pos rfl, if_pos (by omega)]
      · rw [if_neg e]
        by_cases e2 : x < k
        · rw [if_pos e2, if_pos (by omega)]
        · rw [if_neg e2, if_neg (by omega)])
  have a5 : Shows w fun x y => val ((List.range v.ny).map (f x)) ((y : K) - dy) := by
    refine ⟨a4.1, fun x y hx hy => ?_⟩
    rw [a4.2 x y hx hy]
    simp only
    rw [if_pos (by omega)]
  obtain ⟨w', b1, b2, b3, b4⟩ := foldlM_range (n := v.ny)
    (f := fun w y => do
      let r ← getCol w y
      let s ← splineRegV r ((List.range v.nx).map fun x => ((x : Nat) : K) - dx)
      putCol w y s)
    (fun k w => w.nx = v.nx ∧ w.ny = v.ny ∧
      Shows w fun x y => if y < k then val ((List.range v.nx).map fun x' => val ((List.range v.ny).map (f x')) ((y : K) - dy)) ((x : K) - dx)
        else val ((List.range v.ny).map (f x)) ((y : K) - dy)) w
    ⟨a2, a3, by simpa using a5⟩ (by
      rintro k w hk ⟨i1, i2, i3⟩
      rw [getCol_ok i3 (by omega), Res.ok_bind, splineRegV_val (by simp; omega), Res.ok_bind]
      obtain ⟨w', w1, w2, w3, w4⟩ := putCol_ok i3 (y := k) (by omega)
        (fun x => val ((List.range v.nx).map fun x' => val ((List.range v.ny).map (f x')) ((k : K) - dy)) ((x : K) - dx))
      rw [i1] at w1 ⊢
      simp only [lt_irrefl, if_false, List.map_map, Function.comp_def]
      refine ⟨w', w1, w2.trans i1, w3.trans i2, w4.1, ?_⟩
      intro x y hx hy
      rw [w4.2 x y hx hy]
      simp only
      by_cases e : y = k
      · subst e; rw [if_pos rfl, if_pos (by omega)]
      · rw [if_neg e]
        by_cases e2 : y < k
        · rw [if_pos e2, if_pos (by omega)]
        · rw [if_neg e2, if_neg (by omega)])
  refine ⟨w', ?_, b2, b3, b4.1, ?_⟩
  · unfold translateBicubic
    simp only
    rw [a1, Res.ok_bind]
    exact b1
  · intro x y hx hy
    rw [b4.2 x y hx hy]
    simp only
    rw [if_pos (by omega)]
end

/-- Spec: `g` interpolates the values `a 0, ..., a (n-1)`: it is the value of `interpolate_3spline`,
twice continuously differentiable, and equal to `a i` at `i` -/
def Interpolates (n : Nat) (a : Nat → ℝ) (g : ℝ → ℝ) : Prop :=
  (∀ t, splineReg ((List.range n).map a) t = .ok (g t)) ∧ ContDiff ℝ 2 g ∧ ∀ i < n, g i = a i

/-- **C172.** `translate_bicubic` interpolates every row with a smooth curve through its pixels, and
takes for pixel `(x, y)` the value at `x - dx` of the smooth curve through the values of the rows at
`y - dy`. What is missing: pixels that come from the outside of the image should have the default
value, see `C172_refuted`. -/
theorem C172_translate_partial {v : Img ℝ} {f : Nat → Nat → ℝ} (h : Shows v f) (h1 : 2 ≤ v.nx) (h2 : 2 ≤ v.ny) (dx dy d : ℝ) :
    ∃ w, translateBicubic v dx dy d = .ok w ∧ w.nx = v.nx ∧ w.ny = v.ny ∧ w.WF ∧
      ∃ (row : Nat → ℝ → ℝ) (col : Nat → ℝ → ℝ),
        (∀ x < v.nx, Interpolates v.ny (f x) (row x)) ∧
        (∀ y < v.ny, Interpolates v.nx (fun x => row x ((y : ℝ) - dy)) (col y)) ∧
        ∀ x y, x < v.nx → y < v.ny → w.at x y = some (col y ((x : ℝ) - dx)) := by
  have key : ∀ (n : Nat) (a : Nat → ℝ), 2 ≤ n → Interpolates n a (val ((List.range n).map a)) := by
    intro n a hn
    obtain ⟨g, g1, g2, g3⟩ := C31_regular (y := (List.range n).map a) (by simpa using hn)
    have : val ((List.range n).map a) = g := by
      funext t; rw [val, g1]
    rw [this]
    exact ⟨g1, g2, fun i hi => by rw [g3 i (by simpa using hi)]; simp⟩
  obtain ⟨w, w1, w2, w3, w4, w5⟩ := translateBicubic_ok h h1 h2 dx dy d
  exact ⟨w, w1, w2, w3, w4, fun x => val ((List.range v.ny).map (f x)),
    fun y => val ((List.range v.nx).map fun x' => val ((List.range v.ny).map (f x')) ((y : ℝ) - dy)),
    fun x _ => key _ _ h2, fun y _ => key _ _ h1, fun x y hx hy => w5 x y (by omega) (by omega)⟩

/-- **C172 (whole pixels).** For a shift by whole pixels, every pixel that comes from the image is the
pixel it comes from; in particular a shift by zero changes nothing. -/
theorem C172_integer {v : Img ℝ} {f : Nat → Nat → ℝ} (h : Shows v f) (h1 : 2 ≤ v.nx) (h2 : 2 ≤ v.ny) (a b : Int) (d : ℝ) :
    ∃ w, translateBicubic v (a : ℝ) (b : ℝ) d = .ok w ∧ w.nx = v.nx ∧ w.ny = v.ny ∧
      ∀ x y i j : Nat, x < v.nx → y < v.ny → i < v.nx → j < v.ny → (x : Int) - a = i → (y : Int) - b = j →
        w.at x y = v.at i j := by
  obtain ⟨w, w1, w2, w3, -, row, col, r1, r2, r3⟩ := C172_translate_partial h h1 h2 (a : ℝ) (b : ℝ) d
  refine ⟨w, w1, w2, w3, ?_⟩
  intro x y i j hx hy hi hj ei ej
  have e1 : (x : ℝ) - (a : ℝ) = (i : ℝ) := by exact_mod_cast congrArg (Int.cast : Int → ℝ) ei
  have e2 : (y : ℝ) - (b : ℝ) = (j : ℝ) := by exact_mod_cast congrArg (Int.cast : Int → ℝ) ej
  rw [r3 x y hx hy, e1, (r2 y hy).2.2 i hi, e2]
  simp only
  rw [(r1 i hi).2.2 j hj, h.2 i j hi hj]

example : Shows (⟨2, 2, [1, 2, 3, 4]⟩ : Img ℝ) (fun x y => 1 + 2 * x + y) := by
  refine ⟨rfl, ?_⟩
  intro x y hx hy
  simp only at hx hy
  interval_cases x <;> interval_cases y <;> simp [Img.at] <;> norm_num

/-- **C172 (too small).** An image with fewer than two rows or columns is refused, unless it is
empty. -/
theorem C172_small (v : Img ℝ) (hv : v.WF) (dx dy d : ℝ) (h : v.ny < 2) (h0 : 0 < v.nx) :
    translateBicubic v dx dy d = .abort := by
  obtain ⟨n, hn⟩ : ∃ n, v.nx = n + 1 := ⟨v.nx - 1, by omega⟩
  have hr : ∃ l, getRow v 0 = .ok l ∧ l.length = v.ny := by
    have : ∀ y ∈ List.range v.ny, v.get 0 y = .ok (v.px.getD (0 * v.ny + y) 0) := by
      intro y hy
      have hy : y < v.ny := by simpa using hy
      have hl : 0 * v.ny + y < v.px.length := by rw [hv]; exact flat_lt h0 hy
      rw [Img.get, Res.rd_lt hl]
      rw [List.getD_eq_getElem?_getD, List.getElem?_eq_getElem hl]; rfl
    exact ⟨_, Res.mapM_ok this, by simp⟩
  obtain ⟨l, l1, l2⟩ := hr
  unfold translateBicubic
  simp only
  rw [hn, List.range_succ_eq_map, List.foldlM_cons, l1, Res.ok_bind]
  unfold splineRegV
  rw [Res.check_neg (by omega)]; rfl

/-- **C172 (refuted).** The default value is never used: translating a `2×2` image by one pixel with
default 0, the pixels that come from the outside are extrapolated (here to -1), and so are far pixels
(here to -10) . -/
theorem C172_refuted :
    translateBicubic (⟨2, 2, [0, 1, 0, 1]⟩ : Img ℚ) 0 1 0 = .ok ⟨2, 2, [-1, 0, -1, 0]⟩ ∧
    translateBicubic (⟨2, 2, [0, 1, 0, 1]⟩ : Img ℚ) 0 10 0 = .ok ⟨2, 2, [-10, -9, -10, -9]⟩ := by
  decide +kernel

end Verif.Psf
