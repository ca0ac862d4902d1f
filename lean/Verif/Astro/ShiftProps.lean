import Verif.Astro.ImageProps
/-!
# Properties C62 (cyclic shift), C63 (integer translation) and C87 (recentring)
-/
namespace Verif.Astro
open Verif

variable {α : Type}

/-! ### strides -/

theorem row_spec {v : Img α} (hw : v.WF) {ix : Nat} (hx : ix < v.nx) :
    ∃ l, v.row ix = .ok l ∧ l.length = v.ny ∧ ∀ y, y < v.ny → l[y]? = v.at ix y := by
  have hex : ∀ y, y < v.ny → ∃ a, v.at ix y = some a := fun y hy => at_isSome hw hx hy
  have hm : ∀ n ≤ v.ny, ∃ l, (List.range n).mapM (fun y => v.get ix y) = .ok l ∧ l.length = n ∧
      ∀ y, y < n → l[y]? = v.at ix y := by
    intro n
    induction n with
    | zero => intro _; exact ⟨[], rfl, rfl, by omega⟩
    | succ n ih =>
      intro hn
      obtain ⟨l, l1, l2, l3⟩ := ih (by omega)
      obtain ⟨a, ha⟩ := hex n (by omega)
      refine ⟨l ++ [a], ?_, by simp [l2], ?_⟩
      · rw [List.range_succ, List.mapM_append, l1, Res.ok_bind]
        simp [get_at ha]
      · intro y hy
        rcases Nat.lt_or_ge y n with h | h
        · rw [List.getElem?_append_left (by omega), l3 y h]
        · have : y = n := by omega
          subst this
          rw [List.getElem?_append_right (by omega), l2, ha]
          simp
  exact hm v.ny (Nat.le_refl _)

theorem col_spec {v : Img α} (hw : v.WF) {iy : Nat} (hy : iy < v.ny) :
    ∃ l, v.col iy = .ok l ∧ l.length = v.nx ∧ ∀ x, x < v.nx → l[x]? = v.at x iy := by
  have hex : ∀ x, x < v.nx → ∃ a, v.at x iy = some a := fun x hx => at_isSome hw hx hy
  have hm : ∀ n ≤ v.nx, ∃ l, (List.range n).mapM (fun x => v.get x iy) = .ok l ∧ l.length = n ∧
      ∀ x, x < n → l[x]? = v.at x iy := by
    intro n
    induction n with
    | zero => intro _; exact ⟨[], rfl, rfl, by omega⟩
    | succ n ih =>
      intro hn
      obtain ⟨l, l1, l2, l3⟩ := ih (by omega)
      obtain ⟨a, ha⟩ := hex n (by omega)
      refine ⟨l ++ [a], ?_, by simp [l2], ?_⟩
      · rw [List.range_succ, List.mapM_append, l1, Res.ok_bind]
        simp [get_at ha]
      · intro y hy
        rcases Nat.lt_or_ge y n with h | h
        · rw [List.getElem?_append_left (by omega), l3 y h]
        · have : y = n := by omega
          subst this
          rw [List.getElem?_append_right (by omega), l2, ha]
          simp
  exact hm v.nx (Nat.le_refl _)

theorem write_row {v : Img α} (hw : v.WF) {ix : Nat} (hx : ix < v.nx) (k : Nat) (l : List α) (hl : k + l.length ≤ v.ny) :
    ∃ w, (l.zipIdx k).foldlM (fun v a => v.put ix a.2 a.1) v = .ok w ∧ w.WF ∧ w.nx = v.nx ∧ w.ny = v.ny ∧
      ∀ a b, w.at a b = if a = ix ∧ k ≤ b ∧ b < k + l.length then l[b - k]? else v.at a b := by
  induction l generalizing v k with
  | nil =>
    refine ⟨v, rfl, hw, rfl, rfl, ?_⟩
    intro a b
    rw [if_neg]; simp only [List.length_nil]; omega
  | cons e l ih =>
    simp only [List.length_cons] at hl
    obtain ⟨w, w1, w2, w3, w4, w5⟩ := put_spec hw hx (y := k) (by omega) e
    obtain ⟨u, u1, u2, u3, u4, u5⟩ := ih (v := w) w2 (by omega) (k + 1) (by omega)
    refine ⟨u, ?_, u2, by omega, by omega, ?_⟩
    · rw [List.zipIdx_cons, List.foldlM_cons, w1, Res.ok_bind, u1]
    · intro a b
      rw [u5, w5, List.length_cons]
      by_cases e1 : a = ix ∧ k + 1 ≤ b ∧ b < k + 1 + l.length
      · rw [if_pos e1, if_pos (by omega)]
        have : b - k = (b - (k + 1)) + 1 := by omega
        rw [this, List.getElem?_cons_succ]
      · rw [if_neg e1]
        by_cases e2 : a = ix ∧ b = k
        · rw [if_pos e2, if_pos (by omega), e2.2]
          simp
        · rw [if_neg e2, if_neg (by omega)]

theorem write_col {v : Img α} (hw : v.WF) {iy : Nat} (hy : iy < v.ny) (k : Nat) (l : List α) (hl : k + l.length ≤ v.nx) :
    ∃ w, (l.zipIdx k).foldlM (fun v a => v.put a.2 iy a.1) v = .ok w ∧ w.WF ∧ w.nx = v.nx ∧ w.ny = v.ny ∧
      ∀ a b, w.at a b = if b = iy ∧ k ≤ a ∧ a < k + l.length then l[a - k]? else v.at a b := by
  induction l generalizing v k with
  | nil =>
    refine ⟨v, rfl, hw, rfl, rfl, ?_⟩
    intro a b
    rw [if_neg]; simp only [List.length_nil]; omega
  | cons e l ih =>
    simp only [List.length_cons] at hl
    obtain ⟨w, w1, w2, w3, w4, w5⟩ := put_spec hw (x := k) (by omega) hy e
    obtain ⟨u, u1, u2, u3, u4, u5⟩ := ih (v := w) w2 (by omega) (k + 1) (by omega)
    refine ⟨u, ?_, u2, by omega, by omega, ?_⟩
    · rw [List.zipIdx_cons, List.foldlM_cons, w1, Res.ok_bind, u1]
    · intro a b
      rw [u5, w5, List.length_cons]
      by_cases e1 : b = iy ∧ k + 1 ≤ a ∧ a < k + 1 + l.length
      · rw [if_pos e1, if_pos (by omega)]
        have : a - k = (a - (k + 1)) + 1 := by omega
        rw [this, List.getElem?_cons_succ]
      · rw [if_neg e1]
        by_cases e2 : a = k ∧ b = iy
        · rw [if_pos e2, if_pos (by omega), e2.1]
          simp
        · rw [if_neg e2, if_neg (by omega)]

/-- `f` moves the elements of a sequence of `n` elements: element `i` of the result is `g` of the old elements -/
def Moves (n : Nat) (f : List α → List α) (g : (Nat → Option α) → Nat → Option α) : Prop :=
  (∀ l, l.length = n → (f l).length = n) ∧
  ∀ l (p : Nat → Option α), l.length = n → (∀ i < n, l[i]? = p i) → ∀ i < n, (f l)[i]? = g p i

theorem mapRows_spec {v : Img α} (hw : v.WF) {f : List α → List α} {g : (Nat → Option α) → Nat → Option α} (hf : Moves v.ny f g) :
    ∃ w, (List.range v.nx).foldlM (Img.mapRow f) v = .ok w ∧ w.WF ∧ w.nx = v.nx ∧ w.ny = v.ny ∧
      ∀ x y, x < v.nx → y < v.ny → w.at x y = g (fun j => v.at x j) y := by
  refine Exists.imp ?_ (foldlM_range (n := v.nx) (f := Img.mapRow f) (fun i w => w.WF ∧ w.nx = v.nx ∧ w.ny = v.ny ∧
    ∀ x y, x < v.nx → y < v.ny → w.at x y = if x < i then g (fun j => v.at x j) y else v.at x y) v
    ⟨hw, rfl, rfl, fun x y _ _ => by rw [if_neg (by omega)]⟩ ?_)
  · rintro w ⟨h1, h2, h3, h4, h5⟩
    refine ⟨h1, h2, h3, h4, ?_⟩
    intro x y hx hy
    rw [h5 x y hx hy, if_pos hx]
  · rintro i w hi ⟨w1, w2, w3, w4⟩
    obtain ⟨l, l1, l2, l3⟩ := row_spec w1 (ix := i) (by omega)
    have hfl := hf.1 l (by omega)
    obtain ⟨u, u1, u2, u3, u4, u5⟩ := write_row w1 (ix := i) (by omega) 0 (f l) (by omega)
    refine ⟨u, ?_, u2, by omega, by omega, ?_⟩
    · simp only [Img.mapRow, l1, Res.ok_bind, u1]
    · intro x y hx hy
      rw [u5]
      by_cases e : x = i
      · subst e
        rw [if_pos (by omega), if_pos (by omega)]
        refine hf.2 l _ (by omega) (fun j hj => ?_) y hy
        rw [l3 j (by omega), w4 x j hx hj, if_neg (by omega)]
      · rw [if_neg (by omega), w4 x y hx hy]
        by_cases e2 : x < i
        · rw [if_pos e2, if_pos (by omega)]
        · rw [if_neg e2, if_neg (by omega)]

theorem mapCols_spec {v : Img α} (hw : v.WF) {f : List α → List α} {g : (Nat → Option α) → Nat → Option α} (hf : Moves v.nx f g) :
    ∃ w, (List.range v.ny).foldlM (Img.mapCol f) v = .ok w ∧ w.WF ∧ w.nx = v.nx ∧ w.ny = v.ny ∧
      ∀ x y, x < v.nx → y < v.ny → w.at x y = g (fun i => v.at i y) x := by
  refine Exists.imp ?_ (foldlM_range (n := v.ny) (f := Img.mapCol f) (fun i w => w.WF ∧ w.nx = v.nx ∧ w.ny = v.ny ∧
    ∀ x y, x < v.nx → y < v.ny → w.at x y = if y < i then g (fun i => v.at i y) x else v.at x y) v
    ⟨hw, rfl, rfl, fun x y _ _ => by rw [if_neg (by omega)]⟩ ?_)
  · rintro w ⟨h1, h2, h3, h4, h5⟩
    refine ⟨h1, h2, h3, h4, ?_⟩
    intro x y hx hy
    rw [h5 x y hx hy, if_pos hy]
  · rintro i w hi ⟨w1, w2, w3, w4⟩
    obtain ⟨l, l1, l2, l3⟩ := col_spec w1 (iy := i) (by omega)
    have hfl := hf.1 l (by omega)
    obtain ⟨u, u1, u2, u3, u4, u5⟩ := write_col w1 (iy := i) (by omega) 0 (f l) (by omega)
    refine ⟨u, ?_, u2, by omega, by omega, ?_⟩
    · simp only [Img.mapCol, l1, Res.ok_bind, u1]
    · intro x y hx hy
      rw [u5]
      by_cases e : y = i
      · subst e
        rw [if_pos (by omega), if_pos (by omega)]
        refine hf.2 l _ (by omega) (fun j hj => ?_) x hx
        rw [l3 j (by omega), w4 j y hj hy, if_neg (by omega)]
      · rw [if_neg (by omega), w4 x y hx hy]
        by_cases e2 : y < i
        · rw [if_pos e2, if_pos (by omega)]
        · rw [if_neg e2, if_neg (by omega)]

theorem rotate_moves (n k : Nat) (hk : k < n) : Moves n (rotate k : List α → List α) (fun p i => p ((i + k) % n)) := by
  constructor
  · intro l hl; simp [rotate]; omega
  · intro l p hl hp i hi
    unfold rotate
    simp only
    have hd : (l.drop k).length = n - k := by simp [hl]
    rcases Nat.lt_or_ge i (n - k) with h | h
    · rw [List.getElem?_append_left (by omega), List.getElem?_drop, Nat.mod_eq_of_lt (by omega), ← hp (i + k) (by omega)]
      congr 1; omega
    · rw [List.getElem?_append_right (by omega), List.getElem?_take, if_pos (by omega), hd, hp _ (by omega)]
      congr 1
      rw [Nat.mod_eq_sub_mod (by omega), Nat.mod_eq_of_lt (by omega)]; omega

/-! ### C62 -/

theorem negMod_ok {ts : Int} {n : Nat} (hn : 0 < n) (ht : ts ≠ -2 ^ 63) : negMod ts n = .ok (Int.tmod (-ts) n) := by
  unfold negMod; rw [if_neg]; omega

/-- the rotation computed by `shift`: congruent to `-ts`, in range -/
theorem rot_amount (ts : Int) (n : Nat) (hn : 0 < n) :
    ((if Int.tmod (-ts) n < 0 then (n : Int) + Int.tmod (-ts) n else Int.tmod (-ts) n)) = (-ts) % n := by
  have hn' : (0 : Int) < n := by omega
  have h1 : Int.tmod (-ts) n = -ts - n * Int.tdiv (-ts) n := Int.tmod_def _ _
  have h2 := Int.tmod_lt_of_pos (-ts) hn'
  have h3 := Int.lt_tmod_of_pos (-ts) hn'
  split
  · rename_i h
    symm
    rw [← Int.emod_emod_of_dvd (-ts) (Int.dvd_refl (n : Int))]
    have : ((-ts) % (n : Int)) = ((n : Int) + Int.tmod (-ts) n) % n := by
      rw [h1]
      have e : (n : Int) + (-ts - n * Int.tdiv (-ts) n) = -ts + n * (1 - Int.tdiv (-ts) n) := by ring
      rw [e, Int.add_mul_emod_self_left]
    rw [this, Int.emod_emod_of_dvd _ (Int.dvd_refl _), Int.emod_eq_of_lt (by omega) (by omega)]
  · rename_i h
    have : ((-ts) % (n : Int)) = (Int.tmod (-ts) n) % n := by
      rw [h1]
      have e : (-ts - n * Int.tdiv (-ts) n) = -ts + n * (- Int.tdiv (-ts) n) := by ring
      rw [e, Int.add_mul_emod_self_left]
    rw [this, Int.emod_eq_of_lt (by omega) h2]

/-- position `(i + ts) mod n` -/
def wrapAdd (i : Nat) (ts : Int) (n : Nat) : Nat := (((i : Int) + ts) % n).toNat

theorem wrapAdd_lt (i : Nat) (ts : Int) {n : Nat} (hn : 0 < n) : wrapAdd i ts n < n := by
  unfold wrapAdd
  have := Int.emod_lt_of_pos ((i : Int) + ts) (show (0 : Int) < n by omega)
  have := Int.emod_nonneg ((i : Int) + ts) (show (n : Int) ≠ 0 by omega)
  omega

theorem wrapAdd_cast (i : Nat) (ts : Int) {n : Nat} (hn : 0 < n) : (wrapAdd i ts n : Int) = ((i : Int) + ts) % n := by
  unfold wrapAdd
  have := Int.emod_nonneg ((i : Int) + ts) (show (n : Int) ≠ 0 by omega)
  omega

theorem wrapAdd_wrapAdd (i : Nat) (a b : Int) {n : Nat} (hn : 0 < n) : wrapAdd (wrapAdd i a n) b n = wrapAdd i (a + b) n := by
  have : (wrapAdd (wrapAdd i a n) b n : Int) = wrapAdd i (a + b) n := by
    rw [wrapAdd_cast _ _ hn, wrapAdd_cast _ _ hn, wrapAdd_cast _ _ hn, Int.emod_add_emod, Int.add_assoc]
  exact_mod_cast this

theorem wrapAdd_zero (i : Nat) {n : Nat} (hi : i < n) : wrapAdd i 0 n = i := by
  have : (wrapAdd i 0 n : Int) = i := by
    rw [wrapAdd_cast _ _ (by omega), Int.add_zero, Int.emod_eq_of_lt (by omega) (by omega)]
  exact_mod_cast this

theorem shift_spec (v : Img α) (dx dy : Int) (hv : v.WF) (hx : 0 < v.nx) (hy : 0 < v.ny) (hdx : dx ≠ -2 ^ 63) (hdy : dy ≠ -2 ^ 63) :
    ∃ w, shift v dx dy = .ok w ∧ w.WF ∧ w.nx = v.nx ∧ w.ny = v.ny ∧
      ∀ x y, x < v.nx → y < v.ny → w.at x y = v.at (wrapAdd x (-dx) v.nx) (wrapAdd y (-dy) v.ny) := by
  have key : ∀ (n : Nat) (d : Int), 0 < n → (-d) % (n : Int) = ((-d) % (n : Int)).toNat ∧ ((-d) % (n : Int)).toNat < n ∧
      ∀ i, i < n → (i + ((-d) % (n : Int)).toNat) % n = wrapAdd i (-d) n := by
    intro n d hn
    have h1 := Int.emod_lt_of_pos (-d) (show (0 : Int) < n by omega)
    have h2 := Int.emod_nonneg (-d) (show (n : Int) ≠ 0 by omega)
    refine ⟨by omega, by omega, ?_⟩
    intro i hi
    have : (((i + ((-d) % (n : Int)).toNat) % n : Nat) : Int) = wrapAdd i (-d) n := by
      rw [wrapAdd_cast _ _ hn]
      push_cast
      rw [Int.toNat_of_nonneg h2, Int.add_emod_emod]
    exact_mod_cast this
  obtain ⟨a1, a2, a3⟩ := key v.nx dx hx
  obtain ⟨b1, b2, b3⟩ := key v.ny dy hy
  have hrow : ∃ w, (if (-dy) % (v.ny : Int) ≠ 0 then (List.range v.nx).foldlM (Img.mapRow (rotate ((-dy) % (v.ny : Int)).toNat)) v else .ok v) = .ok w ∧
      w.WF ∧ w.nx = v.nx ∧ w.ny = v.ny ∧ ∀ x y, x < v.nx → y < v.ny → w.at x y = v.at x (wrapAdd y (-dy) v.ny) := by
    split
    · obtain ⟨w, w1, w2, w3, w4, w5⟩ := mapRows_spec hv (rotate_moves v.ny _ b2)
      refine ⟨w, w1, w2, w3, w4, fun x y hx hy => ?_⟩
      rw [w5 x y hx hy, b3 y hy]
    · rename_i h
      refine ⟨v, rfl, hv, rfl, rfl, fun x y hx hy => ?_⟩
      have : wrapAdd y (-dy) v.ny = y := by
        rw [← b3 y hy]
        have : ((-dy) % (v.ny : Int)).toNat = 0 := by omega
        rw [this, Nat.add_zero, Nat.mod_eq_of_lt hy]
      rw [this]
  obtain ⟨w, w1, w2, w3, w4, w5⟩ := hrow
  have hcol : ∃ u, (if (-dx) % (v.nx : Int) ≠ 0 then (List.range w.ny).foldlM (Img.mapCol (rotate ((-dx) % (v.nx : Int)).toNat)) w else .ok w) = .ok u ∧
      u.WF ∧ u.nx = v.nx ∧ u.ny = v.ny ∧ ∀ x y, x < v.nx → y < v.ny → u.at x y = w.at (wrapAdd x (-dx) v.nx) y := by
    split
    · obtain ⟨u, u1, u2, u3, u4, u5⟩ := mapCols_spec w2 (f := rotate ((-dx) % (v.nx : Int)).toNat)
        (g := fun p i => p ((i + ((-dx) % (v.nx : Int)).toNat) % v.nx)) (by rw [w3]; exact rotate_moves v.nx _ a2)
      refine ⟨u, u1, u2, by omega, by omega, fun x y hx hy => ?_⟩
      rw [u5 x y (by omega) (by omega), a3 x hx]
    · rename_i h
      refine ⟨w, rfl, w2, w3, w4, fun x y hx hy => ?_⟩
      have : wrapAdd x (-dx) v.nx = x := by
        rw [← a3 x hx]
        have : ((-dx) % (v.nx : Int)).toNat = 0 := by omega
        rw [this, Nat.add_zero, Nat.mod_eq_of_lt hx]
      rw [this]
  obtain ⟨u, u1, u2, u3, u4, u5⟩ := hcol
  refine ⟨u, ?_, u2, u3, u4, ?_⟩
  · unfold shift
    rw [negMod_ok hx hdx, negMod_ok hy hdy, Res.ok_bind, Res.ok_bind]
    simp only [rot_amount dx v.nx hx, rot_amount dy v.ny hy]
    rw [w1, Res.ok_bind, u1]
  · intro x y hx' hy'
    rw [u5 x y hx' hy', w5 _ y (wrapAdd_lt _ _ hx) hy']

/-- C62: in a shifted image the pixel `(x,y)` of the original is at `((x+dx) mod W, (y+dy) mod H)`. -/
theorem C62_shift (v : Img α) (dx dy : Int) (hv : v.WF) (hx : 0 < v.nx) (hy : 0 < v.ny) (hdx : dx ≠ -2 ^ 63) (hdy : dy ≠ -2 ^ 63) :
    ∃ w, shift v dx dy = .ok w ∧ w.WF ∧ w.nx = v.nx ∧ w.ny = v.ny ∧
      ∀ x y, x < v.nx → y < v.ny → w.at (((x : Int) + dx) % v.nx).toNat (((y : Int) + dy) % v.ny).toNat = v.at x y := by
  obtain ⟨w, w1, w2, w3, w4, w5⟩ := shift_spec v dx dy hv hx hy hdx hdy
  refine ⟨w, w1, w2, w3, w4, ?_⟩
  intro x y hx' hy'
  have := w5 (wrapAdd x dx v.nx) (wrapAdd y dy v.ny) (wrapAdd_lt _ _ hx) (wrapAdd_lt _ _ hy)
  rw [wrapAdd_wrapAdd _ _ _ hx, wrapAdd_wrapAdd _ _ _ hy, Int.add_right_neg, Int.add_right_neg, wrapAdd_zero x hx', wrapAdd_zero y hy'] at this
  exact this

/-- C62: shifts add up. -/
theorem C62_compose (v : Img α) (a b c d : Int) (hv : v.WF) (hx : 0 < v.nx) (hy : 0 < v.ny)
    (ha : a ≠ -2 ^ 63) (hb : b ≠ -2 ^ 63) (hc : c ≠ -2 ^ 63) (hd : d ≠ -2 ^ 63) (hac : a + c ≠ -2 ^ 63) (hbd : b + d ≠ -2 ^ 63) :
    (shift v a b >>= fun w => shift w c d) = shift v (a + c) (b + d) := by
  obtain ⟨w, w1, w2, w3, w4, w5⟩ := shift_spec v a b hv hx hy ha hb
  obtain ⟨u, u1, u2, u3, u4, u5⟩ := shift_spec w c d w2 (by omega) (by omega) hc hd
  obtain ⟨z, z1, z2, z3, z4, z5⟩ := shift_spec v (a + c) (b + d) hv hx hy hac hbd
  rw [w1, Res.ok_bind, u1, z1, Res.ok.injEq]
  refine img_ext u2 z2 (by omega) (by omega) fun x y hx' hy' => ?_
  rw [u5 x y (by omega) (by omega), z5 x y (by omega) (by omega),
    w5 _ _ (by rw [w3]; exact wrapAdd_lt _ _ hx) (by rw [w4]; exact wrapAdd_lt _ _ hy), w3, w4,
    wrapAdd_wrapAdd _ _ _ hx, wrapAdd_wrapAdd _ _ _ hy]
  congr 2 <;> ring

/-- C62: shifting an image with a zero dimension divides by zero. -/
theorem C62_empty_ub (v : Img α) (dx dy : Int) (h : v.nx = 0) : shift v dx dy = .ub := by
  simp [shift, negMod, h]

example : shift ⟨2, 3, [1, 2, 3, 4, 5, 6]⟩ 1 (-1) = .ok ⟨2, 3, [5, 6, 4, 2, 3, 1]⟩ := by decide

/-! ### C63 -/

theorem slide_moves (n : Nat) (t : Int) (d : α) (ht : t ≠ 0) (h : t.natAbs ≤ n) :
    Moves n (slide t d : List α → List α) (fun p i => if 0 ≤ (i : Int) + t ∧ (i : Int) + t < n then p ((i : Int) + t).toNat else some d) := by
  constructor
  · intro l hl
    unfold slide
    split
    · simp; omega
    · simp; omega
  · intro l p hl hp i hi
    simp only
    unfold slide
    split
    · rename_i ht
      split
      · rename_i hi2
        rw [List.getElem?_append_left (by simp; omega), List.getElem?_drop, ← hp _ (by omega)]
        congr 1; omega
      · rename_i hi2
        rw [List.getElem?_append_right (by simp; omega), List.getElem?_replicate, if_pos (by simp; omega)]
    · rename_i ht
      split
      · rename_i hi2
        rw [List.getElem?_append_right (by simp; omega), List.getElem?_take, if_pos (by simp; omega), ← hp _ (by omega)]
        congr 1; simp; omega
      · rename_i hi2
        rw [List.getElem?_append_left (by simp; omega), List.getElem?_replicate, if_pos (by omega)]

theorem translate_aux (v : Img α) (dx dy : Int) (d : α) (hv : v.WF) (hx : 0 < v.nx) (hy : 0 < v.ny) (hdx : dx ≠ -2 ^ 63) (hdy : dy ≠ -2 ^ 63) :
    ∃ w, translateInteger v dx dy d = .ok w ∧ w.WF ∧ w.nx = v.nx ∧ w.ny = v.ny ∧ ∀ x y, x < v.nx → y < v.ny → w.at x y =
      if (0 ≤ (x : Int) + Int.tmod (-dx) v.nx ∧ (x : Int) + Int.tmod (-dx) v.nx < v.nx) ∧
         (0 ≤ (y : Int) + Int.tmod (-dy) v.ny ∧ (y : Int) + Int.tmod (-dy) v.ny < v.ny)
      then v.at ((x : Int) + Int.tmod (-dx) v.nx).toNat ((y : Int) + Int.tmod (-dy) v.ny).toNat else some d := by
  have bd : ∀ (n : Nat) (t : Int), 0 < n → (Int.tmod t n).natAbs ≤ n := by
    intro n t hn
    have h2 := Int.tmod_lt_of_pos t (show (0 : Int) < n by omega)
    have h3 := Int.lt_tmod_of_pos t (show (0 : Int) < n by omega)
    omega
  generalize htx : Int.tmod (-dx) v.nx = tx
  generalize hty : Int.tmod (-dy) v.ny = ty
  have bx : tx.natAbs ≤ v.nx := htx ▸ bd v.nx (-dx) hx
  have bY : ty.natAbs ≤ v.ny := hty ▸ bd v.ny (-dy) hy
  have hrow : ∃ w, (if ty ≠ 0 then (List.range v.nx).foldlM (Img.mapRow (slide ty d)) v else .ok v) = .ok w ∧
      w.WF ∧ w.nx = v.nx ∧ w.ny = v.ny ∧ ∀ x y, x < v.nx → y < v.ny → w.at x y =
        if 0 ≤ (y : Int) + ty ∧ (y : Int) + ty < v.ny then v.at x ((y : Int) + ty).toNat else some d := by
    split
    · rename_i h
      exact mapRows_spec hv (slide_moves v.ny ty d h bY)
    · rename_i h
      refine ⟨v, rfl, hv, rfl, rfl, fun x y hx hy => ?_⟩
      rw [if_pos (by omega)]; congr 1; omega
  obtain ⟨w, w1, w2, w3, w4, w5⟩ := hrow
  have hcol : ∃ u, (if tx ≠ 0 then (List.range w.ny).foldlM (Img.mapCol (slide tx d)) w else .ok w) = .ok u ∧
      u.WF ∧ u.nx = v.nx ∧ u.ny = v.ny ∧ ∀ x y, x < v.nx → y < v.ny → u.at x y =
        if 0 ≤ (x : Int) + tx ∧ (x : Int) + tx < v.nx then w.at ((x : Int) + tx).toNat y else some d := by
    split
    · rename_i h
      obtain ⟨u, u1, u2, u3, u4, u5⟩ := mapCols_spec w2 (f := slide tx d)
        (g := fun p i => if 0 ≤ (i : Int) + tx ∧ (i : Int) + tx < v.nx then p ((i : Int) + tx).toNat else some d)
        (by rw [w3]; exact slide_moves v.nx tx d h bx)
      exact ⟨u, u1, u2, by omega, by omega, fun x y hx hy => u5 x y (by omega) (by omega)⟩
    · rename_i h
      refine ⟨w, rfl, w2, w3, w4, fun x y hx hy => ?_⟩
      rw [if_pos (by omega)]; congr 1; omega
  obtain ⟨u, u1, u2, u3, u4, u5⟩ := hcol
  refine ⟨u, ?_, u2, u3, u4, ?_⟩
  · unfold translateInteger
    rw [negMod_ok hx hdx, negMod_ok hy hdy, Res.ok_bind, Res.ok_bind]
    simp only [htx, hty]
    rw [w1, Res.ok_bind, u1]
  · intro x y hx' hy'
    rw [u5 x y hx' hy']
    by_cases e1 : 0 ≤ (x : Int) + tx ∧ (x : Int) + tx < v.nx
    · rw [if_pos e1, w5 _ y (by omega) hy']
      by_cases e2 : 0 ≤ (y : Int) + ty ∧ (y : Int) + ty < v.ny
      · rw [if_pos e2, if_pos ⟨e1, e2⟩]
      · rw [if_neg e2, if_neg (fun h => e2 h.2)]
    · rw [if_neg e1, if_neg (fun h => e1 h.1)]

/-- C63, for shifts smaller than the image: the pixel of the translated image at `(x,y)` is that of the original at
`(x-dx,y-dy)` when it exists, and the default value otherwise. -/
theorem C63_translate_partial (v : Img α) (dx dy : Int) (d : α) (hv : v.WF) (hx : dx.natAbs < v.nx) (hy : dy.natAbs < v.ny)
    (hdx : dx ≠ -2 ^ 63) (hdy : dy ≠ -2 ^ 63) :
    ∃ w, translateInteger v dx dy d = .ok w ∧ w.WF ∧ w.nx = v.nx ∧ w.ny = v.ny ∧ ∀ x y, x < v.nx → y < v.ny →
      w.at x y = if 0 ≤ (x : Int) - dx ∧ (x : Int) - dx < v.nx ∧ 0 ≤ (y : Int) - dy ∧ (y : Int) - dy < v.ny
        then v.at ((x : Int) - dx).toNat ((y : Int) - dy).toNat else some d := by
  obtain ⟨w, w1, w2, w3, w4, w5⟩ := translate_aux v dx dy d hv (by omega) (by omega) hdx hdy
  refine ⟨w, w1, w2, w3, w4, ?_⟩
  have tm : ∀ (t : Int) (n : Nat), t.natAbs < n → Int.tmod (-t) n = -t := by
    intro t n h
    rcases le_total 0 t with ht | ht
    · rw [Int.neg_tmod, Int.tmod_eq_of_lt ht (by omega)]
    · exact Int.tmod_eq_of_lt (by omega) (by omega)
  intro x y hx' hy'
  rw [w5 x y hx' hy', tm dx v.nx hx, tm dy v.ny hy]
  by_cases e : 0 ≤ (x : Int) - dx ∧ (x : Int) - dx < v.nx ∧ 0 ≤ (y : Int) - dy ∧ (y : Int) - dy < v.ny
  · rw [if_pos e, if_pos (by omega)]
    congr 1
  · rw [if_neg e, if_neg (by omega)]

/-- C63 is false for a shift by the whole size of the image: every pixel should be the default value, but the
image is returned unchanged. -/
theorem C63_translate_refuted : translateInteger ⟨1, 2, [7, 8]⟩ 0 2 0 = .ok ⟨1, 2, [7, 8]⟩ := by decide

example : translateInteger ⟨2, 3, [1, 2, 3, 4, 5, 6]⟩ 1 (-1) 0 = .ok ⟨2, 3, [0, 0, 0, 2, 3, 0]⟩ := by decide

/-! ### C87 -/

/-- C87 (same size), for centres less than a full image away from the middle: `recenter` brings the pixel `(cy,cx)` to the
middle of the image, with the default value where the original has no pixel. -/
theorem C87_recenter_partial (v : Img α) (cy cx : Int) (d : α) (hv : v.WF) (hy : (((v.nx / 2 : Nat) : Int) - cy).natAbs < v.nx)
    (hx : (((v.ny / 2 : Nat) : Int) - cx).natAbs < v.ny) (hs : v.nx < 2 ^ 63 ∧ v.ny < 2 ^ 63) :
    ∃ w, recenterKeep v cy cx d = .ok w ∧ w.WF ∧ w.nx = v.nx ∧ w.ny = v.ny ∧ ∀ y x : Nat, y < v.nx → x < v.ny →
      w.at y x = if 0 ≤ cy + (y : Int) - (v.nx / 2 : Nat) ∧ cy + (y : Int) - (v.nx / 2 : Nat) < v.nx ∧
          0 ≤ cx + (x : Int) - (v.ny / 2 : Nat) ∧ cx + (x : Int) - (v.ny / 2 : Nat) < v.ny
        then v.at (cy + (y : Int) - (v.nx / 2 : Nat)).toNat (cx + (x : Int) - (v.ny / 2 : Nat)).toNat else some d := by
  obtain ⟨w, w1, w2, w3, w4, w5⟩ := C63_translate_partial v _ _ d hv hy hx (by omega) (by omega)
  refine ⟨w, w1, w2, w3, w4, fun y x hy' hx' => ?_⟩
  rw [w5 y x hy' hx']
  have e1 : (y : Int) - ((v.nx / 2 : Nat) - cy) = cy + y - (v.nx / 2 : Nat) := by ring
  have e2 : (x : Int) - ((v.ny / 2 : Nat) - cx) = cx + x - (v.ny / 2 : Nat) := by ring
  rw [e1, e2]

/-- C87 (same size) is false for a centre further away: the image should be all default values. -/
theorem C87_recenter_refuted : recenterKeep ⟨1, 2, [7, 8]⟩ 0 3 0 = .ok ⟨1, 2, [7, 8]⟩ := by decide

example : recenterKeep ⟨1, 3, [7, 8, 9]⟩ 0 2 0 = .ok ⟨1, 3, [8, 9, 0]⟩ := by decide

end Verif.Astro
