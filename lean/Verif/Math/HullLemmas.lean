import Verif.Math.Hull
import Mathlib.Tactic.Linarith
import Mathlib.Tactic.Ring
import Mathlib.Tactic.Positivity
import Mathlib.Tactic.FieldSimp
/-!
# Monotone chains
-/
namespace Verif.Hull
open Verif

variable {K : Type} [LinearOrder K] [Field K] [IsStrictOrderedRing K]

/-- product of two vectors -/
def cr (d e : K × K) : K := d.1 * e.2 - d.2 * e.1

/-- a vector of the right half-plane, upward vertical included -/
def lp (d : K × K) : Prop := 0 < d.1 ∨ (d.1 = 0 ∧ 0 < d.2)

/-- the same or zero -/
def lp0 (d : K × K) : Prop := 0 < d.1 ∨ (d.1 = 0 ∧ 0 ≤ d.2)

theorem lp_lp0 {d : K × K} (h : lp d) : lp0 d := h.imp id fun h => ⟨h.1, h.2.le⟩

theorem lp0.fst {d : K × K} (h : lp0 d) : 0 ≤ d.1 := by
  rcases h with h | h
  · exact h.le
  · exact h.1.ge

theorem lp0_cases {d : K × K} (h : lp0 d) : lp d ∨ d = 0 := by
  rcases h with h | ⟨h1, h2⟩
  · exact .inl (.inl h)
  · rcases h2.lt_or_eq with h | h
    · exact .inl (.inr ⟨h1, h⟩)
    · exact .inr (Prod.ext h1 h.symm)

theorem lp0.add {d e : K × K} (h : lp0 d) (g : lp0 e) : lp0 (d + e) := by
  rcases h with h | h <;> rcases g with g | g
  · exact .inl (by simp; linarith)
  · exact .inl (by simp; linarith [g.1])
  · exact .inl (by simp; linarith [h.1])
  · exact .inr ⟨by simp [h.1, g.1], by simp; linarith [h.2, g.2]⟩

theorem lp_add {d e : K × K} (h : lp d) (g : lp0 e) : lp (d + e) := by
  rcases h with h | h <;> rcases g with g | g
  · exact .inl (by simp; linarith)
  · exact .inl (by simp; linarith [g.1])
  · exact .inl (by simp; linarith [h.1])
  · exact .inr ⟨by simp [h.1, g.1], by simp; linarith [h.2, g.2]⟩

/-- slopes are ordered -/
theorem slope_trans {d e w : K × K} (hd : lp0 d) (he : lp e) (hw : lp0 w) (h1 : 0 ≤ cr d e) (h2 : 0 ≤ cr e w) : 0 ≤ cr d w := by
  unfold cr at *
  rcases he with he | ⟨he1, he2⟩
  · have id : (d.1 * w.2 - d.2 * w.1) * e.1 = (d.1 * e.2 - d.2 * e.1) * w.1 + (e.1 * w.2 - e.2 * w.1) * d.1 := by ring
    have := add_nonneg (mul_nonneg h1 hw.fst) (mul_nonneg h2 hd.fst)
    rw [← id] at this
    exact nonneg_of_mul_nonneg_left this he
  · rw [he1] at h1 h2
    simp only [zero_mul, mul_zero, sub_zero, zero_sub] at h1 h2
    have hw1 : w.1 = 0 := le_antisymm (by by_contra hc; have := mul_pos he2 (not_le.1 hc); linarith) hw.fst
    have hw2 : 0 ≤ w.2 := by
      rcases hw with h | h
      · exact absurd h (by rw [hw1]; exact lt_irrefl _)
      · exact h.2
    rw [hw1, mul_zero, sub_zero]
    exact mul_nonneg hd.fst hw2

theorem slope_trans_left {d e w : K × K} (hd : lp0 d) (he : lp e) (hw : lp w) (h1 : 0 < cr d e) (h2 : 0 ≤ cr e w) : 0 < cr d w := by
  unfold cr at *
  have hd1 : 0 < d.1 := by
    rcases hd with h | ⟨h1', h2'⟩
    · exact h
    · exfalso
      rw [h1', zero_mul, zero_sub] at h1
      have : 0 ≤ d.2 * e.1 := mul_nonneg h2' (lp_lp0 he).fst
      linarith
  rcases he with he | ⟨he1, he2⟩
  · have id : (d.1 * w.2 - d.2 * w.1) * e.1 = (d.1 * e.2 - d.2 * e.1) * w.1 + (e.1 * w.2 - e.2 * w.1) * d.1 := by ring
    have : 0 < (d.1 * w.2 - d.2 * w.1) * e.1 := by
      rw [id]
      rcases hw with hw | ⟨hw1, hw2⟩
      · exact add_pos_of_pos_of_nonneg (mul_pos h1 hw) (mul_nonneg h2 hd1.le)
      · rw [hw1]
        simp only [mul_zero, sub_zero, zero_add]
        exact mul_pos (mul_pos he hw2) hd1
    exact pos_of_mul_pos_left this he.le
  · rw [he1] at h2
    simp only [zero_mul, zero_sub] at h2
    have hw1 : w.1 = 0 := le_antisymm (by by_contra hc; have := mul_pos he2 (not_le.1 hc); linarith) (lp_lp0 hw).fst
    have hw2 : 0 < w.2 := by
      rcases hw with h | h
      · exact absurd h (by rw [hw1]; exact lt_irrefl _)
      · exact h.2
    rw [hw1, mul_zero, sub_zero]
    exact mul_pos hd1 hw2

theorem slope_trans_right {d e w : K × K} (hd : lp d) (he : lp e) (hw : lp0 w) (h1 : 0 ≤ cr d e) (h2 : 0 < cr e w) : 0 < cr d w := by
  unfold cr at *
  have he1 : 0 < e.1 := by
    rcases he with h | ⟨h1', h2'⟩
    · exact h
    · exfalso
      rw [h1', zero_mul, zero_sub] at h2
      have : 0 ≤ e.2 * w.1 := mul_nonneg h2'.le hw.fst
      linarith
  have id : (d.1 * w.2 - d.2 * w.1) * e.1 = (d.1 * e.2 - d.2 * e.1) * w.1 + (e.1 * w.2 - e.2 * w.1) * d.1 := by ring
  have hd1 : 0 < d.1 := by
    rcases hd with h | ⟨h1', h2'⟩
    · exact h
    · exfalso
      rw [h1', zero_mul, zero_sub] at h1
      have := mul_pos h2' he1
      linarith
  have : 0 < (d.1 * w.2 - d.2 * w.1) * e.1 := by
    rw [id]
    exact add_pos_of_nonneg_of_pos (mul_nonneg h1 hw.fst) (mul_pos h2 hd1)
  exact pos_of_mul_pos_left this he1.le

/-- lexicographic order of points -/
def le (a b : K × K) : Prop := lp0 (b - a)
def lt (a b : K × K) : Prop := lp (b - a)

theorem le_rfl' (a : K × K) : le a a := .inr (by simp)

theorem le_trans_ {a b c : K × K} (h : le a b) (g : le b c) : le a c := by
  have := lp0.add h g
  have e : b - a + (c - b) = c - a := sub_add_sub_cancel' _ _ _
  rwa [e] at this

theorem le_antisymm_ {a b : K × K} (h : le a b) (g : le b a) : a = b := by
  unfold le lp0 at h g
  rcases h with h | h <;> rcases g with g | g <;> simp only [Prod.fst_sub, Prod.snd_sub] at h g
  · linarith
  · linarith [g.1]
  · linarith [h.1]
  · exact Prod.ext (by linarith [h.1]) (by linarith [h.2, g.2])

theorem le_of_not_ptLess {a b : K × K} (h : ¬ ptLess b a) : le a b := by
  unfold ptLess at h
  rw [not_or, not_and_or, not_not, not_lt, not_lt] at h
  rcases h with ⟨h1, h2⟩
  rcases h1.lt_or_eq with h | h
  · exact .inl (by simp; exact h)
  · rcases h2 with h2 | h2
    · rw [h] at h2; exact absurd h2 (lt_irrefl _)
    · exact .inr ⟨by simp [h], by simpa using h2⟩

theorem cross3_cr (a b c : K × K) : cross3 a b c = cr (b - a) (c - a) := rfl

theorem cross3_cr' (a b c : K × K) : cross3 a b c = cr (b - a) (c - b) := by simp [cross3, cr]; ring

theorem cross3_neg (a b c : K × K) : cross3 (-a) (-b) (-c) = cross3 a b c := by simp [cross3]; ring

/-! ### The chain -/

variable {ι : Type} (pt : ι → K × K)

/-- consecutive vertices increase and turn left (the last vertex comes first) -/
def Conv : List ι → Prop
  | [] => False
  | [_] => True
  | [a, b] => lt (pt b) (pt a)
  | a :: b :: c :: s => lt (pt b) (pt a) ∧ 0 < cross3 (pt c) (pt b) (pt a) ∧ Conv (b :: c :: s)

/-- the point is over one of the edges of the chain -/
def Cover (q : K × K) : List ι → Prop
  | [] => False
  | [a] => q = pt a
  | a :: b :: s => (le (pt b) q ∧ le q (pt a) ∧ 0 ≤ cross3 (pt b) (pt a) q) ∨ Cover q (b :: s)

/-- `(b, a)` is an edge: `a` follows `b` -/
def Edge (b a : ι) : List ι → Prop
  | x :: y :: s => (b = y ∧ a = x) ∨ Edge b a (y :: s)
  | _ => False

variable {pt}

theorem Conv.tail {a b : ι} {s : List ι} (h : Conv pt (a :: b :: s)) : Conv pt (b :: s) := by
  cases s with
  | nil => trivial
  | cons c s => exact h.2.2

theorem Conv.hlt {a b : ι} {s : List ι} (h : Conv pt (a :: b :: s)) : lt (pt b) (pt a) := by
  cases s with
  | nil => exact h
  | cons c s => exact h.1

theorem Cover.top (a : ι) (s : List ι) (h : Conv pt (a :: s)) : Cover pt (pt a) (a :: s) := by
  cases s with
  | nil => rfl
  | cons b s =>
    exact .inl ⟨lp_lp0 h.hlt, le_rfl' _, by rw [cross3_cr']; simp [cr]⟩

/-- a point covered by the chain, seen from a later vertex -/
theorem Cover.before {q : K × K} : ∀ {s : List ι} {a b : ι}, Conv pt (a :: b :: s) → Cover pt q (b :: s) →
    le q (pt b) ∧ 0 ≤ cr (pt b - q) (pt a - pt b)
  | [], a, b, _, hq => by
    have : q = pt b := hq
    rw [this]
    exact ⟨le_rfl' _, by simp [cr]⟩
  | c :: s, a, b, hc, hq => by
    have hab := hc.hlt
    have hbc := hc.tail.hlt
    have hturn : 0 < cr (pt b - pt c) (pt a - pt b) := by rw [← cross3_cr']; exact hc.2.1
    rcases hq with ⟨h1, h2, h3⟩ | hq
    · refine ⟨h2, slope_trans (e := pt b - pt c) h2 hbc (lp_lp0 hab) ?_ hturn.le⟩
      have e : cross3 (pt c) (pt b) q = cr (pt b - q) (pt b - pt c) := by simp [cross3, cr]; ring
      rwa [← e]
    · obtain ⟨h1, h2⟩ := Cover.before hc.tail hq
      refine ⟨le_trans_ h1 (lp_lp0 hbc), ?_⟩
      have h3 := slope_trans h1 hbc (lp_lp0 hab) h2 hturn.le
      have e : cr (pt b - q) (pt a - pt b) = cr (pt b - pt c) (pt a - pt b) + cr (pt c - q) (pt a - pt b) := by simp [cr]; ring
      rw [e]
      exact add_nonneg hturn.le h3

/-- an earlier edge has a smaller slope -/
theorem Conv.edge_slope : ∀ {s : List ι} {a b d c : ι}, Conv pt (a :: b :: s) → Edge d c (b :: s) →
    lt (pt d) (pt c) ∧ 0 < cr (pt c - pt d) (pt a - pt b)
  | [], _, _, _, _, _, he => he.elim
  | x :: s, a, b, d, c, hc, he => by
    have hturn : 0 < cr (pt b - pt x) (pt a - pt b) := by rw [← cross3_cr']; exact hc.2.1
    rcases he with ⟨rfl, rfl⟩ | he
    · exact ⟨hc.tail.hlt, hturn⟩
    · obtain ⟨h1, h2⟩ := Conv.edge_slope hc.tail he
      exact ⟨h1, slope_trans_left (lp_lp0 h1) hc.tail.hlt hc.hlt h2 hturn.le⟩

/-- every point over the chain is on the left of all its edges -/
theorem Conv.left {q : K × K} : ∀ {s : List ι}, Conv pt s → Cover pt q s → ∀ d c, Edge d c s → 0 ≤ cross3 (pt d) (pt c) q
  | [], h, _, _, _, _ => h.elim
  | [_], _, _, _, _, he => he.elim
  | a :: b :: s, hc, hq, d, c, he => by
    rcases he with ⟨rfl, rfl⟩ | he
    · rcases hq with ⟨_, _, h⟩ | hq
      · exact h
      · obtain ⟨_, h⟩ := Cover.before hc hq
        have e : cross3 (pt d) (pt c) q = cr (pt d - q) (pt c - pt d) := by simp [cross3, cr]; ring
        rwa [e]
    · rcases hq with ⟨h1, h2, h3⟩ | hq
      · obtain ⟨g1, g2⟩ := hc.edge_slope he
        have g3 := Conv.left hc.tail (Cover.top b s hc.tail) d c he
        have g4 : 0 ≤ cr (pt c - pt d) (q - pt b) := slope_trans (lp_lp0 g1) hc.hlt h1 g2.le h3
        have e : cross3 (pt d) (pt c) q = cross3 (pt d) (pt c) (pt b) + cr (pt c - pt d) (q - pt b) := by simp [cross3, cr]; ring
        rw [e]; exact add_nonneg g3 g4
      · exact Conv.left hc.tail hq d c he

/-- the first vertex is strictly on the left of the edges that do not start there -/
theorem Conv.left_bottom {z : ι} : ∀ {s : List ι} {a b : ι}, Conv pt (a :: b :: (s ++ [z])) → 0 < cr (pt b - pt z) (pt a - pt b)
  | [], a, b, hc => by rw [← cross3_cr']; exact hc.2.1
  | c :: s, a, b, hc => by
    have hc' : Conv pt (a :: b :: c :: (s ++ [z])) := hc
    have hturn : 0 < cr (pt b - pt c) (pt a - pt b) := by rw [← cross3_cr']; exact hc'.2.1
    have ih := Conv.left_bottom (s := s) hc'.tail
    have hz : le (pt z) (pt c) := by
      have hcov : ∀ (l : List ι) (c : ι), Conv pt (c :: (l ++ [z])) → lt (pt z) (pt c) := by
        intro l
        induction l with
        | nil => intro c h; exact h
        | cons x l ih =>
          intro c h
          have h1 := ih x h.tail
          have := lp_add h1 (lp_lp0 h.hlt)
          have e : pt x - pt z + (pt c - pt x) = pt c - pt z := sub_add_sub_cancel' _ _ _
          unfold lt; rwa [e] at this
      exact lp_lp0 (hcov s c hc'.tail.tail)
    have h3 := slope_trans_left hz hc'.tail.hlt hc'.hlt ih hturn.le
    have e : cr (pt b - pt z) (pt a - pt b) = cr (pt b - pt c) (pt a - pt b) + cr (pt c - pt z) (pt a - pt b) := by simp [cr]; ring
    rw [e]; exact add_pos hturn h3

/-- the last vertex is strictly on the left of the edges that do not end there -/
theorem Conv.left_top : ∀ {s : List ι} {a b d c : ι}, Conv pt (a :: b :: s) → Edge d c (b :: s) → 0 < cr (pt c - pt d) (pt a - pt d)
  | [], _, _, _, _, _, he => he.elim
  | x :: s, a, b, d, c, hc, he => by
    have h1 := (hc.edge_slope he).2
    rcases he with ⟨rfl, rfl⟩ | he
    · have e : cr (pt c - pt d) (pt a - pt d) = cr (pt c - pt d) (pt a - pt c) := by simp [cr]; ring
      rwa [e]
    · have ih := Conv.left_top hc.tail he
      have e : cr (pt c - pt d) (pt a - pt d) = cr (pt c - pt d) (pt b - pt d) + cr (pt c - pt d) (pt a - pt b) := by simp [cr]; ring
      rw [e]; exact add_pos ih h1

/-! ### The loops -/

/-- removing a vertex below the new edge -/
theorem Cover.merge {q : K × K} {p b a : ι} {r : List ι} (hab : lt (pt a) (pt b)) (hbp : le (pt b) (pt p))
    (hx : cross3 (pt a) (pt b) (pt p) ≤ 0) (hq : Cover pt q (p :: b :: a :: r)) : Cover pt q (p :: a :: r) := by
  have hap : lt (pt a) (pt p) := by
    have := lp_add hab hbp
    have e : pt b - pt a + (pt p - pt b) = pt p - pt a := sub_add_sub_cancel' _ _ _
    unfold lt; rwa [e] at this
  have s1 : 0 ≤ cr (pt p - pt a) (pt b - pt a) := by
    have e : cr (pt p - pt a) (pt b - pt a) = - cross3 (pt a) (pt b) (pt p) := by simp [cross3, cr]; ring
    rw [e]; linarith
  rcases hq with ⟨h1, h2, h3⟩ | ⟨h1, h2, h3⟩ | hq
  · left
    refine ⟨le_trans_ (lp_lp0 hab) h1, h2, ?_⟩
    rcases lp0_cases hbp with hlt | heq
    · have g1 : 0 ≤ cr (pt p - q) (pt p - pt b) := by
        have e : cross3 (pt b) (pt p) q = cr (pt p - q) (pt p - pt b) := by simp [cross3, cr]; ring
        rwa [← e]
      have g2 : 0 ≤ cr (pt p - pt b) (pt p - pt a) := by
        have e : cr (pt p - pt b) (pt p - pt a) = cr (pt p - pt a) (pt b - pt a) := by simp [cr]; ring
        rwa [e]
      have := slope_trans h2 hlt (lp_lp0 hap) g1 g2
      have e : cross3 (pt a) (pt p) q = cr (pt p - q) (pt p - pt a) := by simp [cross3, cr]; ring
      rwa [e]
    · have e1 : pt p = pt b := sub_eq_zero.1 heq
      have e2 : q = pt p := le_antisymm_ h2 (by rw [e1]; exact h1)
      rw [e2, cross3_cr']; simp [cr]
  · left
    refine ⟨h1, le_trans_ h2 hbp, ?_⟩
    exact slope_trans (lp_lp0 hap) hab h1 s1 h3
  · exact .inr hq

/-- the state of the first loop: a chain, or twice the same point -/
def Inv (pt : ι → K × K) (Q : ι → Prop) (s : List ι) : Prop :=
  (Conv pt s ∨ ∃ a b, s = [a, b] ∧ pt a = pt b) ∧ ∀ q, Q q → Cover pt (pt q) s

theorem popLoop_spec (Q : ι → Prop) (p : ι) : ∀ (s : List ι) (b : ι), Conv pt (b :: s) → le (pt b) (pt p) →
    (∀ q, Q q → Cover pt (pt q) (p :: b :: s)) →
    ∃ b' s', popLoop pt 2 p (b :: s) = .ok (b' :: s') ∧ (b' :: s') <:+ (b :: s) ∧ le (pt b') (pt p) ∧
      Inv pt Q (p :: b' :: s')
  | [], b, _, hbp, hq => by
    refine ⟨b, [], rfl, List.suffix_refl _, hbp, ?_, hq⟩
    rcases lp0_cases hbp with h | h
    · exact .inl h
    · exact .inr ⟨p, b, rfl, sub_eq_zero.1 h⟩
  | a :: s, b, hc, hbp, hq => by
    unfold popLoop
    split
    · rename_i h
      obtain ⟨b', s', h1, h2, h3, h4⟩ := popLoop_spec Q p s a hc.tail (le_trans_ (lp_lp0 hc.hlt) hbp)
        (fun q hQ => Cover.merge hc.hlt hbp h.2 (hq q hQ))
      exact ⟨b', s', h1, h2.trans (List.suffix_cons _ _), h3, h4⟩
    · rename_i h
      have hpos : 0 < cross3 (pt a) (pt b) (pt p) := by
        by_contra hn
        exact h ⟨by omega, not_lt.1 hn⟩
      refine ⟨b, a :: s, rfl, List.suffix_refl _, hbp, .inl ⟨?_, hpos, hc⟩, hq⟩
      rcases lp0_cases hbp with hl | hl
      · exact hl
      · exfalso
        rw [sub_eq_zero.1 hl, cross3_cr'] at hpos
        simp [cr] at hpos

theorem Inv.le_top {Q : ι → Prop} {a : ι} {s : List ι} (h : Inv pt Q (a :: s)) : ∀ q, Q q → le (pt q) (pt a) := by
  intro q hq
  have hc := h.2 q hq
  have key : ∀ (s : List ι) (a : ι), (Conv pt (a :: s) ∨ ∃ x y, a :: s = [x, y] ∧ pt x = pt y) → Cover pt (pt q) (a :: s) → le (pt q) (pt a) := by
    intro s
    induction s with
    | nil => intro a _ hc; rw [show pt q = pt a from hc]; exact le_rfl' _
    | cons b s ih =>
      intro a hI hc
      rcases hc with ⟨_, h, _⟩ | hc
      · exact h
      · rcases hI with hI | ⟨x, y, e, hxy⟩
        · exact le_trans_ (ih b (.inl hI.tail) hc) (lp_lp0 hI.hlt)
        · injection e with e1 e2
          injection e2 with e2 e3
          subst e1; subst e2; subst e3
          rw [hxy]; rw [show pt q = pt b from hc]; exact le_rfl' _
  exact key s a h.1 hc

/-- one turn of the loop -/
theorem addPoint_spec {cap : Nat} {Q : ι → Prop} {p b : ι} {s : List ι} (hI : Inv pt Q (b :: s)) (hbp : le (pt b) (pt p))
    (hcap : s.length + 1 < cap) :
    ∃ b' s', addPoint pt cap 2 (b :: s) p = .ok (p :: b' :: s') ∧ (b' :: s') <:+ (b :: s) ∧ Inv pt (fun q => Q q ∨ q = p) (p :: b' :: s') := by
  have start : ∀ (b : ι) (s : List ι), Conv pt (b :: s) → le (pt b) (pt p) → (∀ q, Q q → Cover pt (pt q) (p :: b :: s)) →
      ∃ b' s', popLoop pt 2 p (b :: s) = .ok (b' :: s') ∧ (b' :: s') <:+ (b :: s) ∧ Inv pt (fun q => Q q ∨ q = p) (p :: b' :: s') := by
    intro b s hc hle hq
    obtain ⟨b', s', h1, h2, -, h4⟩ := popLoop_spec (fun q => Q q ∨ q = p) p s b hc hle (fun q hQ => by
      rcases hQ with hQ | rfl
      · exact hq q hQ
      · exact .inl ⟨hle, le_rfl' _, by rw [cross3_cr']; simp [cr]⟩)
    exact ⟨b', s', h1, h2, h4⟩
  have main : ∃ b' s', popLoop pt 2 p (b :: s) = .ok (b' :: s') ∧ (b' :: s') <:+ (b :: s) ∧ Inv pt (fun q => Q q ∨ q = p) (p :: b' :: s') := by
    rcases hI.1 with hc | ⟨x, y, e, hxy⟩
    · exact start b s hc hbp fun q hQ => .inr (hI.2 q hQ)
    · injection e with e1 e2
      subst e1; subst e2
      have hpop : popLoop pt 2 p [b, y] = popLoop pt 2 p [y] := by
        have hx : cross3 (pt y) (pt b) (pt p) ≤ 0 := by rw [hxy]; simp [cross3]
        show (if 2 ≤ ([] : List ι).length + 2 ∧ cross3 (pt y) (pt b) (pt p) ≤ 0 then popLoop pt 2 p [y] else _) = _
        rw [if_pos ⟨by simp, hx⟩]
      obtain ⟨b', s', h1, h2, h3⟩ := start y [] trivial (by rw [← hxy]; exact hbp) (fun q hQ => .inr (by
        rcases hI.2 q hQ with ⟨g1, g2, _⟩ | h
        · rw [hxy] at g2
          exact le_antisymm_ g2 g1
        · exact h))
      rw [hpop]
      exact ⟨b', s', h1, h2.trans (List.suffix_cons _ _), h3⟩
  obtain ⟨b', s', h1, h2, h3⟩ := main
  refine ⟨b', s', ?_, h2, h3⟩
  unfold addPoint
  rw [h1, Res.ok_bind, if_pos]
  have := h2.length_le
  simp only [List.length_cons] at this ⊢
  omega

/-- the first loop -/
theorem chain_spec {cap : Nat} : ∀ (l : List ι) (b : ι) (s : List ι) (Q : ι → Prop), Inv pt Q (b :: s) → Q b →
    l.Pairwise (fun i j => le (pt i) (pt j)) → (∀ i ∈ l, le (pt b) (pt i)) → s.length + 1 + l.length ≤ cap →
    ∃ t s', l.foldlM (addPoint pt cap 2) (b :: s) = .ok (t :: s') ∧ Inv pt (fun q => Q q ∨ q ∈ l) (t :: s') ∧
      t = (b :: l).getLast (by simp) ∧ s'.length + 1 ≤ s.length + 1 + l.length ∧ (t :: s').getLast? = (b :: s).getLast? ∧
      ∀ x ∈ t :: s', x ∈ b :: s ∨ x ∈ l
  | [], b, s, Q, hI, _, _, _, hcap => ⟨b, s, rfl, by simpa using hI, rfl, by simp, rfl, fun x hx => .inl hx⟩
  | p :: l, b, s, Q, hI, hQb, hs, hb, hcap => by
    rw [List.pairwise_cons] at hs
    simp only [List.length_cons] at hcap
    obtain ⟨b', s', h1, h2, h3⟩ := addPoint_spec (cap := cap) hI (hb p (by simp)) (by omega)
    have hlen := h2.length_le
    simp only [List.length_cons] at hlen
    obtain ⟨t, s'', g1, g2, g3, g4, g5, g6⟩ := chain_spec (cap := cap) l p (b' :: s') (fun q => Q q ∨ q = p) h3 (.inr rfl) hs.2 hs.1 (by simp; omega)
    refine ⟨t, s'', ?_, ?_, ?_, ?_, ?_, ?_⟩
    · rw [List.foldlM_cons, h1, Res.ok_bind, g1]
    · refine ⟨g2.1, fun q hq => g2.2 q ?_⟩
      rcases hq with hq | hq
      · exact .inl (.inl hq)
      · rcases List.mem_cons.1 hq with rfl | hq
        · exact .inl (.inr rfl)
        · exact .inr hq
    · rw [g3]; rw [List.getLast_cons (by simp : p :: l ≠ [])]
    · simp only [List.length_cons] at g4 ⊢; omega
    · rw [g5, List.getLast?_cons_cons]
      obtain ⟨w, hw⟩ := h2
      rw [← hw, List.getLast?_append]
      cases hh : (b' :: s').getLast? with
      | none => simp at hh
      | some v => rfl
    · intro x hx
      rcases g6 x hx with h | h
      · rcases List.mem_cons.1 h with rfl | h
        · right; simp
        · exact .inl (h2.subset h)
      · right; simp [h]

/-- the second loop works over the result of the first as on an empty array -/
theorem popLoop_base (p h : ι) (base : List ι) : ∀ s : List ι,
    popLoop pt (base.length + 2) p (s ++ h :: base) = (popLoop pt 2 p (s ++ [h])).map fun r => r ++ base
  | [] => by
    cases base with
    | nil => simp [popLoop, Res.map]
    | cons x base =>
      show (if base.length + 3 ≤ base.length + 2 ∧ _ then _ else _) = _
      rw [if_neg (fun h => absurd h.1 (by omega))]
      simp [popLoop, Res.map]
  | a :: s => by
    have step : ∀ (b : ι) (r r' : List ι) (t t' : Nat), r.length = r'.length + base.length → t = t' + base.length →
        popLoop pt t p (b :: r) = (popLoop pt t' p (b :: r')).map (fun r => r ++ base) →
        b :: r = b :: r' ++ base → 
        popLoop pt t p (a :: b :: r) = (popLoop pt t' p (a :: b :: r')).map fun r => r ++ base := by
      intro b r r' t t' h1 h2 h3 h4
      unfold popLoop
      by_cases hx : cross3 (pt b) (pt a) (pt p) ≤ 0
      · by_cases ht : t' ≤ r'.length + 2
        · rw [if_pos ⟨by omega, hx⟩, if_pos ⟨ht, hx⟩, h3]
        · rw [if_neg (fun h => ht (by omega)), if_neg (fun h => ht h.1)]
          show _ = Res.ok (a :: b :: r' ++ base)
          rw [List.cons_append, ← h4]
      · rw [if_neg (fun h => hx h.2), if_neg (fun h => hx h.2)]
        show _ = Res.ok (a :: b :: r' ++ base)
        rw [List.cons_append, ← h4]
    have ih := popLoop_base p h base s
    cases s with
    | nil => exact step h base [] _ _ (by simp) (by omega) ih rfl
    | cons b s => exact step b (s ++ h :: base) (s ++ [h]) _ _ (by simp; omega) (by omega) ih (by simp)

end Verif.Hull
