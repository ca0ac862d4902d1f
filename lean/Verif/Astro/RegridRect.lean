import Verif.Astro.RegridClip
/-!
# Projections with sides along the axes
-/
namespace Verif.Astro
open Verif

variable {K : Type} [Field K] [LinearOrder K] [IsStrictOrderedRing K]

/-- Spec: the four corners, in the order of the code, are those of the rectangle `[x0,x1] × [y0,y1]`: the map sends rows to rows and
columns to columns, or rows to columns and columns to rows, in any direction. -/
def Aligned (p0 p1 p2 p3 : K × K) (x0 x1 y0 y1 : K) : Prop :=
  x0 < x1 ∧ y0 < y1 ∧ ∃ xa ya xb yb : K, (xa = x0 ∧ xb = x1 ∨ xa = x1 ∧ xb = x0) ∧ (ya = y0 ∧ yb = y1 ∨ ya = y1 ∧ yb = y0) ∧
    p0 = (xa, ya) ∧ p2 = (xb, yb) ∧ (p1 = (xb, ya) ∧ p3 = (xa, yb) ∨ p1 = (xa, yb) ∧ p3 = (xb, ya))

theorem in_vert_low {orient s u v : K} (h : 0 < (v - u) * orient) (x y : K) : inEdge orient (s, u) (s, v) (x, y) = decide (s < x) := by
  unfold inEdge
  simp only [sub_self, zero_mul, zero_sub]
  congr 1
  have e : -((v - u) * (x - s)) * orient = -(((v - u) * orient) * (x - s)) := by ring
  rw [e, neg_lt_zero, mul_pos_iff_of_pos_left h, sub_pos]

theorem in_vert_high {orient s u v : K} (h : (v - u) * orient < 0) (x y : K) : inEdge orient (s, u) (s, v) (x, y) = decide (x < s) := by
  unfold inEdge
  simp only [sub_self, zero_mul, zero_sub]
  congr 1
  have e : -((v - u) * (x - s)) * orient = -((-((v - u) * orient)) * (s - x)) := by ring
  rw [e, neg_lt_zero, mul_pos_iff_of_pos_left (neg_pos.2 h), sub_pos]

theorem in_horiz_low {orient s u v : K} (h : (v - u) * orient < 0) (x y : K) : inEdge orient (u, s) (v, s) (x, y) = decide (s < y) := by
  unfold inEdge
  simp only [sub_self, zero_mul, sub_zero]
  congr 1
  have e : (v - u) * (y - s) * orient = -((-((v - u) * orient)) * (y - s)) := by ring
  rw [e, neg_lt_zero, mul_pos_iff_of_pos_left (neg_pos.2 h), sub_pos]

theorem in_horiz_high {orient s u v : K} (h : 0 < (v - u) * orient) (x y : K) : inEdge orient (u, s) (v, s) (x, y) = decide (y < s) := by
  unfold inEdge
  simp only [sub_self, zero_mul, sub_zero]
  congr 1
  have e : (v - u) * (y - s) * orient = -(((v - u) * orient) * (s - y)) := by ring
  rw [e, neg_lt_zero, mul_pos_iff_of_pos_left h, sub_pos]

theorem tol_one {tol H g : K} (h1 : tol ≤ H) (hH : 0 ≤ H) (hg : 1 ≤ g) : tol ≤ H * g :=
  h1.trans (le_mul_of_one_le_right hH hg)

/-- the length of what remains of a side of the pixel when its other end is cut as well -/
theorem tol_high {tol H s l h : K} {n : K} (h1 : tol ≤ H) (h2 : tol ≤ H * (h - l)) (hH : 0 ≤ H) (hs : s = h) (hb : s ≤ n + 1 / 2) :
    tol ≤ H * (n + 1 / 2 - max (n - 1 / 2) l) := by
  subst hs
  rcases le_total (n - 1 / 2) l with h | h
  · rw [max_eq_right h]
    exact h2.trans (mul_le_mul_of_nonneg_left (by linarith) hH)
  · rw [max_eq_left h]
    exact tol_one h1 hH (by linarith)

theorem tol_low {tol H s l h : K} {n : K} (h1 : tol ≤ H) (h2 : tol ≤ H * (h - l)) (hH : 0 ≤ H) (hs : s = l) (hb : n - 1 / 2 ≤ s) :
    tol ≤ H * (min (n + 1 / 2) h - (n - 1 / 2)) := by
  subst hs
  rcases le_total (n + 1 / 2) h with h' | h'
  · rw [min_eq_left h']
    exact tol_one h1 hH (by linarith)
  · rw [min_eq_right h']
    exact h2.trans (mul_le_mul_of_nonneg_left (by linarith) hH)

theorem square_rect (ipx ipy : Nat) : IsRect (square (K := K) ipx ipy) ((ipx : K) - 1 / 2) ((ipx : K) + 1 / 2) ((ipy : K) - 1 / 2) ((ipy : K) + 1 / 2) := by
  unfold IsRect
  rw [if_pos ⟨by linarith, by linarith⟩]
  exact List.IsRotated.refl _

/-- the common part of a pixel and of an aligned projection -/
theorem clipped_rect {tol : K} {p0 p1 p2 p3 : K × K} {x0 x1 y0 y1 : K} (hA : Aligned p0 p1 p2 p3 x0 x1 y0 y1)
    (t1 : tol ≤ x1 - x0) (t2 : tol ≤ y1 - y0) (t3 : tol ≤ (x1 - x0) * (y1 - y0)) (ipx ipy : Nat) :
    IsRect (clipped tol (orientation p0 p1 p2) [p0, p1, p2, p3] ipx ipy)
      (max ((ipx : K) - 1 / 2) x0) (min ((ipx : K) + 1 / 2) x1) (max ((ipy : K) - 1 / 2) y0) (min ((ipy : K) + 1 / 2) y1) := by
  obtain ⟨hx, hy, xa, ya, xb, yb, hxs, hys, rfl, rfl, hp⟩ := hA
  have dx : 0 < x1 - x0 := sub_pos.2 hx
  have dy : 0 < y1 - y0 := sub_pos.2 hy
  have dx' : x0 - x1 < 0 := sub_neg.2 hx
  have dy' : y0 - y1 < 0 := sub_neg.2 hy
  have t3' : tol ≤ (y1 - y0) * (x1 - x0) := by rw [mul_comm]; exact t3
  have ax : |x1 - x0| = x1 - x0 := abs_of_pos dx
  have ax' : |x0 - x1| = x1 - x0 := by rw [abs_sub_comm]; exact ax
  have ay : |y1 - y0| = y1 - y0 := abs_of_pos dy
  have ay' : |y0 - y1| = y1 - y0 := by rw [abs_sub_comm]; exact ay
  have sq := square_rect (K := K) ipx ipy
  have mpp : 0 < (x1 - x0) * (y1 - y0) := mul_pos dx dy
  have mnp : ¬ 0 < (x0 - x1) * (y1 - y0) := not_lt.2 (mul_nonpos_of_nonpos_of_nonneg dx'.le dy.le)
  have mpn : ¬ 0 < (x1 - x0) * (y0 - y1) := not_lt.2 (mul_nonpos_of_nonneg_of_nonpos dx.le dy'.le)
  have mnn : 0 < (x0 - x1) * (y0 - y1) := mul_pos_of_neg_of_neg dx' dy'
  have qpp : ¬ 0 < -((y1 - y0) * (x1 - x0)) := by rw [mul_comm, neg_pos]; exact mpp.le.not_gt
  have qnp : 0 < -((y0 - y1) * (x1 - x0)) := by rw [neg_pos]; exact mul_neg_of_neg_of_pos dy' dx
  have qpn : 0 < -((y1 - y0) * (x0 - x1)) := by rw [neg_pos]; exact mul_neg_of_pos_of_neg dy dx'
  have qnn : ¬ 0 < -((y0 - y1) * (x0 - x1)) := by rw [mul_comm, neg_pos]; exact mnn.le.not_gt
  have key : ∀ (o : K) (a b c d : K × K) (w : List (K × K)), clipAll tol o d [a, b, c, d] w =
      clipEdge tol o d c (clipEdge tol o c b (clipEdge tol o b a (clipEdge tol o a d w))) := fun _ _ _ _ _ _ => rfl
  have cl : ∀ (o : K) (a b c d : K × K), clipped tol o [a, b, c, d] ipx ipy = clipAll tol o d [a, b, c, d] (square ipx ipy) :=
    fun _ _ _ _ _ => rfl
  rcases hp with ⟨rfl, rfl⟩ | ⟨rfl, rfl⟩ <;> rcases hxs with ⟨rfl, rfl⟩ | ⟨rfl, rfl⟩ <;> rcases hys with ⟨rfl, rfl⟩ | ⟨rfl, rfl⟩ <;>
    simp only [orientation, sub_self, mul_zero, zero_mul, sub_zero, zero_sub, gt_iff_lt] <;>
    (first | rw [if_pos mpp] | rw [if_neg mnp] | rw [if_neg mpn] | rw [if_pos mnn] | rw [if_neg qpp] | rw [if_pos qnp] | rw [if_pos qpn] | rw [if_neg qnn]) <;>
    rw [cl, key]
  · exact clip_high_y (clip_high_x (clip_low_y (clip_low_x (sq)
      hy.ne (in_vert_low (by linarith)) (fun _ _ => by rw [ay]; exact tol_one t2 dy.le (by linarith)))
      hx.ne' (in_horiz_low (by linarith)) (fun _ _ => by rw [ax']; exact tol_one t1 dx.le (by linarith)))
      hy.ne' (in_vert_high (by linarith)) (fun _ h => by rw [ay']; exact tol_high t2 t3' dy.le rfl h))
      hx.ne (in_horiz_high (by linarith)) (fun _ h => by rw [ax]; exact tol_high t1 t3 dx.le rfl h)
  · exact clip_low_y (clip_high_x (clip_high_y (clip_low_x (sq)
      hy.ne' (in_vert_low (by linarith)) (fun _ _ => by rw [ay']; exact tol_one t2 dy.le (by linarith)))
      hx.ne' (in_horiz_high (by linarith)) (fun _ _ => by rw [ax']; exact tol_one t1 dx.le (by linarith)))
      hy.ne (in_vert_high (by linarith)) (fun _ h => by rw [ay]; exact tol_high t2 t3' dy.le rfl h))
      hx.ne (in_horiz_low (by linarith)) (fun h _ => by rw [ax]; exact tol_low t1 t3 dx.le rfl h)
  · exact clip_high_y (clip_low_x (clip_low_y (clip_high_x (sq)
      hy.ne (in_vert_high (by linarith)) (fun _ _ => by rw [ay]; exact tol_one t2 dy.le (by linarith)))
      hx.ne (in_horiz_low (by linarith)) (fun _ _ => by rw [ax]; exact tol_one t1 dx.le (by linarith)))
      hy.ne' (in_vert_low (by linarith)) (fun h _ => by rw [ay']; exact tol_low t2 t3' dy.le rfl h))
      hx.ne' (in_horiz_high (by linarith)) (fun _ h => by rw [ax']; exact tol_high t1 t3 dx.le rfl h)
  · exact clip_low_y (clip_low_x (clip_high_y (clip_high_x (sq)
      hy.ne' (in_vert_high (by linarith)) (fun _ _ => by rw [ay']; exact tol_one t2 dy.le (by linarith)))
      hx.ne (in_horiz_high (by linarith)) (fun _ _ => by rw [ax]; exact tol_one t1 dx.le (by linarith)))
      hy.ne (in_vert_low (by linarith)) (fun h _ => by rw [ay]; exact tol_low t2 t3' dy.le rfl h))
      hx.ne' (in_horiz_low (by linarith)) (fun h _ => by rw [ax']; exact tol_low t1 t3 dx.le rfl h)
  · exact clip_high_x (clip_high_y (clip_low_x (clip_low_y (sq)
      hx.ne (in_horiz_low (by linarith)) (fun _ _ => by rw [ax]; exact tol_one t1 dx.le (by linarith)))
      hy.ne' (in_vert_low (by linarith)) (fun _ _ => by rw [ay']; exact tol_one t2 dy.le (by linarith)))
      hx.ne' (in_horiz_high (by linarith)) (fun _ h => by rw [ax']; exact tol_high t1 t3 dx.le rfl h))
      hy.ne (in_vert_high (by linarith)) (fun _ h => by rw [ay]; exact tol_high t2 t3' dy.le rfl h)
  · exact clip_high_x (clip_low_y (clip_low_x (clip_high_y (sq)
      hx.ne (in_horiz_high (by linarith)) (fun _ _ => by rw [ax]; exact tol_one t1 dx.le (by linarith)))
      hy.ne (in_vert_low (by linarith)) (fun _ _ => by rw [ay]; exact tol_one t2 dy.le (by linarith)))
      hx.ne' (in_horiz_low (by linarith)) (fun h _ => by rw [ax']; exact tol_low t1 t3 dx.le rfl h))
      hy.ne' (in_vert_high (by linarith)) (fun _ h => by rw [ay']; exact tol_high t2 t3' dy.le rfl h)
  · exact clip_low_x (clip_high_y (clip_high_x (clip_low_y (sq)
      hx.ne' (in_horiz_low (by linarith)) (fun _ _ => by rw [ax']; exact tol_one t1 dx.le (by linarith)))
      hy.ne' (in_vert_high (by linarith)) (fun _ _ => by rw [ay']; exact tol_one t2 dy.le (by linarith)))
      hx.ne (in_horiz_high (by linarith)) (fun _ h => by rw [ax]; exact tol_high t1 t3 dx.le rfl h))
      hy.ne (in_vert_low (by linarith)) (fun h _ => by rw [ay]; exact tol_low t2 t3' dy.le rfl h)
  · exact clip_low_x (clip_low_y (clip_high_x (clip_high_y (sq)
      hx.ne' (in_horiz_high (by linarith)) (fun _ _ => by rw [ax']; exact tol_one t1 dx.le (by linarith)))
      hy.ne (in_vert_high (by linarith)) (fun _ _ => by rw [ay]; exact tol_one t2 dy.le (by linarith)))
      hx.ne (in_horiz_low (by linarith)) (fun h _ => by rw [ax]; exact tol_low t1 t3 dx.le rfl h))
      hy.ne' (in_vert_low (by linarith)) (fun h _ => by rw [ay']; exact tol_low t2 t3' dy.le rfl h)

end Verif.Astro
