import Verif.Basic
import Mathlib.Tactic.Ring
/-!
# Images: two-dimensional vectors and loops over their pixels

A `vec<2,T>` is its dimensions and its elements in row-major order (`core/vec.hpp`, and C03 for the index
computation): `v.safe(x,y)` is element `x*dims[1]+y`, undefined when that is outside the data.
-/
namespace Verif.Astro
open Verif

/-- `vec<2,T>` -/
structure Img (α : Type) where
  nx : Nat
  ny : Nat
  px : List α
deriving DecidableEq, Repr

variable {α β σ : Type}

/-- the number of elements is the product of the dimensions (C01) -/
def Img.WF (v : Img α) : Prop := v.px.length = v.nx * v.ny

instance (v : Img α) : Decidable v.WF := inferInstanceAs (Decidable (_ = _))

/-- read `v.safe(x,y)` (`core/bits/vec.hpp`, unchecked) -/
def Img.get (v : Img α) (x y : Nat) : Res α := Res.rd v.px (x * v.ny + y)

/-- write `v.safe(x,y) = a` -/
def Img.put (v : Img α) (x y : Nat) (a : α) : Res (Img α) :=
  if x * v.ny + y < v.px.length then .ok { v with px := v.px.set (x * v.ny + y) a } else .ub

/-- `replicate(a, nx, ny)`, and `vec<2,T>(nx, ny)` with the default value `a` -/
def Img.fill (nx ny : Nat) (a : α) : Img α := ⟨nx, ny, List.replicate (nx * ny) a⟩

/-- `for (x : range(nx)) for (y : range(ny)) body` -/
def for2 (nx ny : Nat) (body : Nat → Nat → σ → Res σ) (s : σ) : Res σ :=
  (List.range nx).foldlM (fun s x => (List.range ny).foldlM (fun s y => body x y s) s) s

/-! ### The pixel at a position -/

/-- Spec: the pixel at `(x,y)`, if there is one. -/
def Img.at (v : Img α) (x y : Nat) : Option α := if x < v.nx ∧ y < v.ny then v.px[x * v.ny + y]? else none

theorem flat_lt {x y nx ny : Nat} (hx : x < nx) (hy : y < ny) : x * ny + y < nx * ny := by
  calc x * ny + y < x * ny + ny := by omega
    _ = (x + 1) * ny := by ring
    _ ≤ nx * ny := Nat.mul_le_mul_right _ hx

theorem flat_inj {x y x' y' ny : Nat} (hy : y < ny) (hy' : y' < ny) (h : x * ny + y = x' * ny + y') : x = x' ∧ y = y' := by
  have h1 : (x * ny + y) / ny = x := by
    rw [Nat.mul_comm, Nat.mul_add_div (by omega), Nat.div_eq_of_lt hy]; omega
  have h2 : (x' * ny + y') / ny = x' := by
    rw [Nat.mul_comm, Nat.mul_add_div (by omega), Nat.div_eq_of_lt hy']; omega
  have : x = x' := by rw [← h1, ← h2, h]
  subst this
  exact ⟨rfl, by omega⟩

theorem at_isSome {v : Img α} (hw : v.WF) {x y : Nat} (hx : x < v.nx) (hy : y < v.ny) : ∃ a, v.at x y = some a := by
  have h : x * v.ny + y < v.px.length := by rw [hw]; exact flat_lt hx hy
  exact ⟨v.px[x * v.ny + y], by simp [Img.at, hx, hy, h]⟩

theorem at_none {v : Img α} {x y : Nat} (h : ¬ (x < v.nx ∧ y < v.ny)) : v.at x y = none := if_neg h

theorem at_lt {v : Img α} {x y : Nat} {a : α} (h : v.at x y = some a) : x < v.nx ∧ y < v.ny := by
  by_contra hc; rw [at_none hc] at h; simp at h

theorem get_at {v : Img α} {x y : Nat} {a : α} (h : v.at x y = some a) : v.get x y = .ok a := by
  unfold Img.at at h
  split at h
  · exact Res.rd_eq_ok.2 h
  · simp at h

theorem at_of_get {v : Img α} {x y : Nat} {a : α} (hx : x < v.nx) (hy : y < v.ny) (h : v.get x y = .ok a) : v.at x y = some a := by
  unfold Img.at
  rw [if_pos ⟨hx, hy⟩]
  exact Res.rd_eq_ok.1 h

theorem put_spec {v : Img α} (hw : v.WF) {x y : Nat} (hx : x < v.nx) (hy : y < v.ny) (a : α) :
    ∃ w, v.put x y a = .ok w ∧ w.WF ∧ w.nx = v.nx ∧ w.ny = v.ny ∧
      ∀ x' y', w.at x' y' = if x' = x ∧ y' = y then some a else v.at x' y' := by
  have h : x * v.ny + y < v.px.length := by rw [hw]; exact flat_lt hx hy
  refine ⟨_, if_pos h, ?_, rfl, rfl, ?_⟩
  · simpa [Img.WF] using hw
  · intro x' y'
    unfold Img.at
    simp only
    by_cases hr : x' < v.nx ∧ y' < v.ny
    · rw [if_pos hr, if_pos hr]
      by_cases he : x' = x ∧ y' = y
      · obtain ⟨rfl, rfl⟩ := he
        rw [if_pos ⟨rfl, rfl⟩, List.getElem?_set_self h]
      · rw [if_neg he, List.getElem?_set_ne]
        intro e
        have := flat_inj hy hr.2 e
        exact he ⟨this.1.symm, this.2.symm⟩
    · rw [if_neg hr, if_neg hr, if_neg]
      rintro ⟨rfl, rfl⟩
      exact hr ⟨hx, hy⟩

theorem fill_wf (nx ny : Nat) (a : α) : (Img.fill nx ny a).WF := by simp [Img.WF, Img.fill]

theorem fill_at (nx ny : Nat) (a : α) (x y : Nat) : (Img.fill nx ny a).at x y = if x < nx ∧ y < ny then some a else none := by
  unfold Img.at Img.fill
  simp only
  split
  · rename_i h
    simp [flat_lt h.1 h.2]
  · rfl

theorem img_ext {v w : Img α} (hv : v.WF) (hw : w.WF) (h1 : v.nx = w.nx) (h2 : v.ny = w.ny)
    (h : ∀ x y, x < v.nx → y < v.ny → v.at x y = w.at x y) : v = w := by
  cases v with
  | mk nx ny p =>
    cases w with
    | mk nx' ny' q =>
      simp only at h1 h2
      subst h1 h2
      simp only [Img.mk.injEq, true_and]
      simp only [Img.WF] at hv hw
      apply List.ext_getElem (by omega)
      intro i hi hi'
      have hny : 0 < ny := by
        rcases Nat.eq_zero_or_pos ny with h0 | h0
        · subst h0; simp at hv; simp [hv] at hi
        · exact h0
      have hx : i / ny < nx := by rw [Nat.div_lt_iff_lt_mul hny]; omega
      have := h (i / ny) (i % ny) hx (Nat.mod_lt _ hny)
      simp only [Img.at, hx, Nat.mod_lt _ hny, and_self, if_true] at this
      have e : i / ny * ny + i % ny = i := by rw [Nat.mul_comm]; exact Nat.div_add_mod i ny
      rw [e, List.getElem?_eq_getElem hi, List.getElem?_eq_getElem hi'] at this
      simpa using this

/-! ### Loops -/

theorem foldlM_range {n : Nat} {f : σ → Nat → Res σ} (Inv : Nat → σ → Prop) (s : σ) (h0 : Inv 0 s)
    (h : ∀ i s, i < n → Inv i s → ∃ s', f s i = .ok s' ∧ Inv (i + 1) s') :
    ∃ s', (List.range n).foldlM f s = .ok s' ∧ Inv n s' := by
  induction n with
  | zero => exact ⟨s, rfl, h0⟩
  | succ n ih =>
    obtain ⟨s1, h1, h2⟩ := ih fun i s hi => h i s (by omega)
    obtain ⟨s2, h3, h4⟩ := h n s1 (by omega) h2
    refine ⟨s2, ?_, h4⟩
    rw [List.range_succ, List.foldlM_append, h1, Res.ok_bind, List.foldlM_cons, h3]
    rfl

/-- Loop rule: `Inv x y` holds before the body runs for `(x,y)`. -/
theorem for2_rule {nx ny : Nat} {body : Nat → Nat → σ → Res σ} (Inv : Nat → Nat → σ → Prop) (s : σ) (h0 : Inv 0 0 s)
    (step : ∀ x y s, x < nx → y < ny → Inv x y s → ∃ s', body x y s = .ok s' ∧ Inv x (y + 1) s')
    (next : ∀ x s, x < nx → Inv x ny s → Inv (x + 1) 0 s) :
    ∃ s', for2 nx ny body s = .ok s' ∧ Inv nx 0 s' := by
  unfold for2
  refine foldlM_range (fun x s => Inv x 0 s) s h0 ?_
  intro x s hx hs
  obtain ⟨s', h1, h2⟩ := foldlM_range (n := ny) (f := fun s y => body x y s) (fun y s => Inv x y s) s hs
    fun y s hy hi => step x y s hx hy hi
  exact ⟨s', h1, next x s' hx h2⟩

/-- `(x',y')` comes before `(x,y)` in the loop -/
def Before (x y x' y' : Nat) : Prop := x' < x ∨ (x' = x ∧ y' < y)

instance (x y x' y' : Nat) : Decidable (Before x y x' y') := inferInstanceAs (Decidable (_ ∨ _))

/-- A loop that writes at `(p x, q y)` the value `val x y`, for injective `p` and `q`: afterwards exactly these
pixels have changed. -/
theorem for2_write {nx ny : Nat} {body : Nat → Nat → Img β → Res (Img β)} (p q : Nat → Nat) (val : Nat → Nat → β) (r : Img β)
    (hr : r.WF) (hp : ∀ x < nx, p x < r.nx) (hq : ∀ y < ny, q y < r.ny)
    (hpi : ∀ x x', x < nx → x' < nx → p x = p x' → x = x') (hqi : ∀ y y', y < ny → y' < ny → q y = q y' → y = y')
    (hb : ∀ x y s, x < nx → y < ny → s.WF → s.nx = r.nx → s.ny = r.ny → body x y s = s.put (p x) (q y) (val x y)) :
    ∃ s, for2 nx ny body r = .ok s ∧ s.WF ∧ s.nx = r.nx ∧ s.ny = r.ny ∧
      (∀ x y, x < nx → y < ny → s.at (p x) (q y) = some (val x y)) ∧
      ∀ a b, (¬ ∃ x y, x < nx ∧ y < ny ∧ p x = a ∧ q y = b) → s.at a b = r.at a b := by
  refine Exists.imp ?_ (for2_rule (nx := nx) (ny := ny) (body := body)
    (fun x y s => s.WF ∧ s.nx = r.nx ∧ s.ny = r.ny ∧
      (∀ x' y', x' < nx → y' < ny → Before x y x' y' → s.at (p x') (q y') = some (val x' y')) ∧
      ∀ a b, (¬ ∃ x y, x < nx ∧ y < ny ∧ p x = a ∧ q y = b) → s.at a b = r.at a b) r
    ⟨hr, rfl, rfl, fun x' y' _ _ hb => by unfold Before at hb; omega, fun _ _ _ => rfl⟩ ?_ ?_)
  · rintro s ⟨h1, h2⟩
    refine ⟨h1, h2.1, h2.2.1, h2.2.2.1, ?_, h2.2.2.2.2⟩
    intro x y hx hy
    exact h2.2.2.2.1 x y hx hy (Or.inl hx)
  · rintro x y s hx hy ⟨i1, i2, i3, i4, i5⟩
    rw [hb x y s hx hy i1 i2 i3]
    obtain ⟨w, w1, w2, w3, w4, w5⟩ := put_spec i1 (x := p x) (y := q y) (by rw [i2]; exact hp x hx) (by rw [i3]; exact hq y hy) (val x y)
    refine ⟨w, w1, w2, w3.trans i2, w4.trans i3, ?_, ?_⟩
    · intro x' y' hx' hy' hbf
      rw [w5]
      by_cases e : p x' = p x ∧ q y' = q y
      · have e1 := hpi _ _ hx' hx e.1
        have e2 := hqi _ _ hy' hy e.2
        subst e1 e2
        simp
      · rw [if_neg e]
        apply i4 x' y' hx' hy'
        unfold Before at hbf ⊢
        rcases hbf with h | ⟨h, h'⟩
        · exact Or.inl h
        · subst h
          right
          refine ⟨rfl, ?_⟩
          rcases Nat.lt_or_ge y' y with h | h
          · exact h
          · have : y' = y := by omega
            subst this
            exact absurd ⟨rfl, rfl⟩ e
    · intro a b hab
      rw [w5, if_neg, i5 a b hab]
      rintro ⟨rfl, rfl⟩
      exact hab ⟨x, y, hx, hy, rfl, rfl⟩
  · rintro x s hx ⟨i1, i2, i3, i4, i5⟩
    refine ⟨i1, i2, i3, ?_, i5⟩
    intro x' y' hx' hy' hbf
    apply i4 x' y' hx' hy'
    unfold Before at hbf ⊢
    omega

/-! ### Unsigned arithmetic -/

/-- number of values of `uint_t` -/
def W64 : Nat := 2 ^ 64

/-- `a + b` in `uint_t` -/
def wadd (a b : Nat) : Nat := (a + b) % W64

/-- `a - b` in `uint_t` -/
def wsub (a b : Nat) : Nat := (a + (W64 - b)) % W64

theorem wadd_eq {a b : Nat} (h : a + b < W64) : wadd a b = a + b := Nat.mod_eq_of_lt h

theorem wsub_eq {a b : Nat} (ha : a < W64) (h : b ≤ a) : wsub a b = a - b := by
  unfold wsub
  have e : a + (W64 - b) = (a - b) + W64 := by omega
  rw [e, Nat.add_mod_right, Nat.mod_eq_of_lt (by omega)]

theorem wsub_wrap {a b : Nat} (h : a < b) (hb : b ≤ W64) : wsub a b = a + W64 - b := by
  unfold wsub
  rw [Nat.mod_eq_of_lt (by omega)]; omega

end Verif.Astro
