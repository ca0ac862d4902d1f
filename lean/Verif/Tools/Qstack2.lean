import Verif.Astro.StackProps
import Verif.Astro.MakePsfProps
import Verif.Astro.Qstack
/-!
# `qstack2` (C215, C216)

The catalogue and its cutouts are those of `qstack` (C118); here one starts from the cube of cutouts. The indices drawn by the bootstraps are inputs (C59). Pixels are finite; a division by zero is
not modelled (the errors are not zero).
-/
namespace Verif.Qstack2
open Verif Verif.Core Verif.Astro

variable {K : Type} [Field K] [LinearOrder K]

/-! ### Model -/

/-- an element of the option `ids`: `*`, a number, or a text that is not one -/
inductive Bound where
  | star
  | num (n : Nat)
  | bad

/-- `read_ids` (`qstack2.cpp:71-87`): `none` is an error -/
def readId (b : Bound) (star max : Nat) : Option Nat :=
  match b with
  | .star => some star
  | .num n => if n < max then some n else none
  | .bad => none

/-- the selection (`qstack2.cpp:192-199`, `:254-260`, `:311-318`): `v[lo-_-hi]`; a range whose size is negative has a size close to 2^64, and the allocation stops the program -/
def chosen (ids : Option (Bound × Bound)) (n : Nat) : Res (Option (List Nat)) :=
  match ids with
  | none => .ok (some (List.range n))
  | some (a, b) =>
    match readId a 0 n with
    | none => .ok none
    | some lo =>
      match readId b ((n + W - 1) % W) n with
      | none => .ok none
      | some hi => do
        Res.check (hi < n)
        Res.check (lo < n)
        if lo ≤ hi + 1 then .ok (some (List.range' lo (hi + 1 - lo))) else .abort

/-- the weights: none, `wht` or `err` -/
inductive Weights (K : Type) where
  | none
  | wht (w : Vec K)
  | err (e : Vec K)

/-- the other options -/
structure Opts where
  median : Bool
  mean : Bool
  bstrap : Bool

/-- what is written: the stack, and the bootstraps if they are asked for -/
structure Out (K : Type) where
  stack : Vec (Option K)
  bs : Option (Vec (Option K))
deriving DecidableEq

/-- `qstack_median_bootstrap` (`qstack.hpp:449-461`) for the drawn indices -/
def medianBootstrap (cube : Vec K) : List (List Nat) → Vec (Option K) → Res (Vec (Option K))
  | [], bs => .ok bs
  | ids :: l, bs => do
    let sub ← select cube ids
    let img ← qstackMedian ⟨sub.data.map some, sub.dims⟩
    let bs ← bs.pushSlice img
    medianBootstrap cube l bs

/-- the median is used (`qstack2.cpp:122-126`) -/
def useMedian (o : Opts) : Bool := o.median && !o.mean

/-- the stack and its bootstraps (`qstack2.cpp:235-348`), without the option `cube`; `none` is an error -/
def run (o : Opts) (ids : Option (Bound × Bound)) (cube : Vec K) (wht : Weights K) (draws : List (List Nat)) : Res (Option (Out K)) := do
  let n := cube.dims.getD 0 0
  let sel ← chosen ids n
  match sel with
  | none => .ok none
  | some l => do
    let c ← select cube l
    let stack ← if useMedian o then qstackMedian ⟨c.data.map some, c.dims⟩ else match wht with
      | .none => qstackMean c
      | .wht w => do
        let w ← select w l
        qstackMeanW c w
      | .err e => do
        let e ← select e l
        qstackMeanW c ⟨e.data.map fun x => 1 / (x * x), e.dims⟩
    if o.bstrap then do
      let b ← if useMedian o then medianBootstrap c draws (Vec.empty 3) else meanBootstrap c draws (Vec.empty 3)
      .ok (some ⟨stack, some b⟩)
    else .ok (some ⟨stack, none⟩)

/-- the shift of a cutout (`qstack2.cpp:222-226`), by the offsets of `qstack` (`qstack.hpp:193-196`); the first dimension is `y` -/
def subpixel [FloorRing K] (cut : Img K) (x y : K) : Res (Img K) := Psf.translate cut (y - (Qstack.rnd y : Int)) (x - (Qstack.rnd x : Int)) 0

/-! ### Helpers -/

variable [IsStrictOrderedRing K]

theorem sub_pix (v s : Vec K) (h w : Nat) (l : List Nat) (y x : Nat) (hp : pixels s h w (List.range l.length) y x = pixels v h w l y x) (ids : List Nat) (hi : ∀ i ∈ ids, i < l.length) :
    pixels s h w ids y x = pixels v h w (ids.map fun i => l.getD i 0) y x := by
  unfold pixels at *
  rw [List.map_map]
  refine List.map_congr_left fun i him => ?_
  have hil := hi i him
  have := congrArg (fun L => L[i]?) hp
  simp only [List.getElem?_map, List.getElem?_range hil, List.getElem?_eq_getElem hil, Option.map_some, Option.some.injEq] at this
  simp only [Function.comp_apply, List.getD_eq_getElem?_getD, List.getElem?_eq_getElem hil, Option.getD_some]
  exact this

omit [Field K] [LinearOrder K] [IsStrictOrderedRing K] in
theorem chosen_mem {ids : Option (Bound × Bound)} {n : Nat} {l : List Nat} (h : chosen ids n = .ok (some l)) : ∀ i ∈ l, i < n := by
  unfold chosen at h
  split at h
  next =>
    simp only [Res.ok.injEq, Option.some.injEq] at h
    subst h
    intro i hi
    exact List.mem_range.1 hi
  next a b =>
    split at h
    next => simp at h
    next lo hlo =>
      split at h
      next => simp at h
      next hi hhi =>
        by_cases h1 : hi < n
        · by_cases h2 : lo < n
          · rw [Res.check_pos h1, Res.ok_bind, Res.check_pos h2, Res.ok_bind] at h
            split at h
            next =>
              simp only [Res.ok.injEq, Option.some.injEq] at h
              subst h
              intro i him
              have := List.mem_range'_1.1 him
              omega
            next => simp at h
          · rw [Res.check_pos h1, Res.ok_bind, Res.check_neg h2] at h
            cases h
        · rw [Res.check_neg h1] at h
          cases h

/-! ### C215 -/

/-- The sources are those between the two bounds, which are part of the range; `*` is the first or the last one, and without `ids` all the sources are used. -/
theorem C215_ids_partial (n : Nat) (hn : n < W) (a b : Bound) (lo hi : Nat) (ha : a = .num lo ∨ (a = .star ∧ lo = 0)) (hb : b = .num hi ∨ (b = .star ∧ hi + 1 = n)) (hlo : lo ≤ hi) (hhi : hi < n) :
    chosen none n = .ok (some (List.range n)) ∧ ∃ l, chosen (some (a, b)) n = .ok (some l) ∧ l.Pairwise (· < ·) ∧ ∀ i, i ∈ l ↔ lo ≤ i ∧ i ≤ hi := by
  refine ⟨rfl, List.range' lo (hi + 1 - lo), ?_, List.pairwise_lt_range', fun i => ?_⟩
  · have e1 : readId a 0 n = some lo := by
      rcases ha with rfl | ⟨rfl, rfl⟩
      · simp only [readId]; rw [if_pos (by omega)]
      · rfl
    have e2 : readId b ((n + W - 1) % W) n = some hi := by
      rcases hb with rfl | ⟨rfl, h⟩
      · simp only [readId]; rw [if_pos hhi]
      · have e : (n + W - 1) % W = hi := by
          rw [show n + W - 1 = hi + W by omega, Nat.add_mod_right, Nat.mod_eq_of_lt (by omega)]
        rw [e]
        rfl
    unfold chosen
    simp only [e1, e2]
    rw [Res.check_pos hhi, Res.ok_bind, Res.check_pos (show lo < n by omega), Res.ok_bind, if_pos (by omega)]
  · rw [List.mem_range'_1]; omega

/-- A number that is too large, or a text that is not a number, is an error. -/
theorem C215_ids_error (n : Nat) (a b : Bound) (h : (∃ k, n ≤ k ∧ (a = .num k ∨ (b = .num k ∧ a ≠ .bad))) ∨ a = .bad ∨ b = .bad) : chosen (some (a, b)) n = .ok none := by
  unfold chosen
  rcases h with ⟨k, hk, rfl | ⟨rfl, hb⟩⟩ | rfl | rfl
  · simp [readId, Nat.not_lt.2 hk]
  · dsimp only
    have e : readId (.num k) ((n + W - 1) % W) n = none := by simp [readId, Nat.not_lt.2 hk]
    rw [e]
    split <;> rfl
  · rfl
  · dsimp only
    have e : readId .bad ((n + W - 1) % W) n = none := rfl
    rw [e]
    split <;> rfl

/-- Without the median, the stack is the mean of the chosen sources, or their mean with the weights (one over the square of the errors). -/
theorem C215_mean (o : Opts) (ids : Option (Bound × Bound)) (cube : Vec K) (n h w : Nat) (hc : IsCube cube n h w) (l : List Nat) (hl : chosen ids n = .ok (some l)) (hm : o.median = false ∨ o.mean = true)
    (hb : o.bstrap = false) (g : Vec K) (hg : IsCube g n h w) (draws : List (List Nat)) :
    (∃ r, run o ids cube .none draws = .ok (some ⟨r, none⟩) ∧ IsImage r h w fun y x => Stats.mean (pixels cube h w l y x)) ∧
    (∃ r, run o ids cube (.wht g) draws = .ok (some ⟨r, none⟩) ∧ IsImage r h w fun y x => wmean (pixels cube h w l y x) (pixels g h w l y x)) ∧
    ∃ r, run o ids cube (.err g) draws = .ok (some ⟨r, none⟩) ∧ IsImage r h w fun y x => wmean (pixels cube h w l y x) ((pixels g h w l y x).map fun e => 1 / e ^ 2) := by
  have hmem := chosen_mem hl
  obtain ⟨s, s1, s2, s3⟩ := select_spec cube n h w hc l hmem
  obtain ⟨t, t1, t2, t3⟩ := select_spec g n h w hg l hmem
  have hu : useMedian o = false := by
    unfold useMedian
    rcases hm with h | h <;> simp [h]
  have hn : cube.dims.getD 0 0 = n := by rw [hc.1]; rfl
  refine ⟨?_, ?_, ?_⟩
  · obtain ⟨r, r1, r2, r3, r4⟩ := C168_mean s l.length h w s2
    refine ⟨r, ?_, r2, r3, fun y x hy hx => by rw [r4 y x hy hx]; dsimp only; rw [s3 y x hy hx]⟩
    unfold run
    simp only [hn, hl, Res.ok_bind, s1, hu, Bool.false_eq_true, if_false, r1, hb]
  · obtain ⟨r, r1, r2, r3, r4⟩ := C168_weighted s t l.length h w s2 t2
    refine ⟨r, ?_, r2, r3, fun y x hy hx => by rw [r4 y x hy hx]; dsimp only; rw [s3 y x hy hx, t3 y x hy hx]⟩
    unfold run
    simp only [hn, hl, Res.ok_bind, s1, hu, Bool.false_eq_true, if_false, t1, r1, hb]
  · have t2' : IsCube (⟨t.data.map fun x => 1 / (x * x), t.dims⟩ : Vec K) l.length h w := ⟨t2.1, by simp only [List.length_map]; exact t2.2⟩
    obtain ⟨r, r1, r2, r3, r4⟩ := C168_weighted s _ l.length h w s2 t2'
    refine ⟨r, ?_, r2, r3, fun y x hy hx => ?_⟩
    · unfold run
      simp only [hn, hl, Res.ok_bind, s1, hu, Bool.false_eq_true, if_false, t1, r1, hb]
    · rw [r4 y x hy hx]
      dsimp only
      rw [s3 y x hy hx, ← t3 y x hy hx]
      congr 2
      unfold pixels
      rw [List.map_map]
      refine List.map_congr_left fun k hk => ?_
      unfold pix
      have hk := List.mem_range.1 hk
      have hlt : (k * h + y) * w + x < t.data.length := by
        rw [t2.2, show (k * h + y) * w + x = k * (h * w) + (y * w + x) by ring]
        have : y * w + x < h * w := flat_lt hy hx
        have h2 : (k + 1) * (h * w) ≤ l.length * (h * w) := Nat.mul_le_mul_right _ hk
        rw [Nat.succ_mul] at h2
        omega
      simp only [Function.comp_apply, List.getD_eq_getElem?_getD, List.getElem?_map, List.getElem?_eq_getElem hlt, Option.map_some, Option.getD_some, pow_two]

example : run (K := Rat) ⟨false, false, false⟩ (some (.num 1, .star)) ⟨[9, 1, 3], [3, 1, 1]⟩ .none [] = .ok (some ⟨⟨[some 2], [1, 1]⟩, none⟩) := by decide +kernel
example : run (K := Rat) ⟨false, false, false⟩ (some (.num 1, .star)) ⟨[9, 1, 3], [3, 1, 1]⟩ (.err ⟨[1, 1, 2], [3, 1, 1]⟩) [] = .ok (some ⟨⟨[some (7 / 5)], [1, 1]⟩, none⟩) := by decide +kernel

/-- the median of some of the cutouts -/
theorem median_of (cube : Vec K) (n h w : Nat) (hc : IsCube cube n h w) (l : List Nat) (hmem : ∀ i ∈ l, i < n) (hne : l ≠ []) : ∃ s r, select cube l = .ok s ∧ qstackMedian ⟨s.data.map some, s.dims⟩ = .ok r ∧
    r.dims = [h, w] ∧ r.data.length = h * w ∧ ∀ y x, y < h → x < w → ∃ a, r.data[y * w + x]? = some (some a) ∧ Math.IsOrderStat ((pixels cube h w l y x).map some) (l.length / 2) a := by
  obtain ⟨s, s1, s2, s3⟩ := select_spec cube n h w hc l hmem
  have hlen : 0 < l.length := List.length_pos_of_ne_nil hne
  obtain ⟨r, r1, r2, r3, r4⟩ := C168_median ⟨s.data.map some, s.dims⟩ l.length h w s2.1 (by simp only [List.length_map]; exact s2.2) hlen
  refine ⟨s, r, s1, r1, r2, r3, fun y x hy hx => ?_⟩
  · obtain ⟨q, q1, q2, q3⟩ := r4 y x hy hx
    have hq : q = (pixels cube h w l y x).map some := by
      rw [← s3 y x hy hx]
      unfold pixels
      refine List.ext_getElem? fun k => ?_
      by_cases hk : k < l.length
      · have hlt : (k * h + y) * w + x < s.data.length := by
          rw [s2.2, show (k * h + y) * w + x = k * (h * w) + (y * w + x) by ring]
          have : y * w + x < h * w := flat_lt hy hx
          have h2 : (k + 1) * (h * w) ≤ l.length * (h * w) := Nat.mul_le_mul_right _ hk
          rw [Nat.succ_mul] at h2
          omega
        rw [q2 k hk]
        simp [pix, List.getElem?_range hk, List.getElem?_eq_getElem hlt]
      · rw [List.getElem?_eq_none (by omega), List.getElem?_eq_none (by simp; omega)]
    have hnum : Math.numbers q = l.length := by
      rw [hq]
      simp [Math.numbers, pixels]
    rw [hnum] at q3
    rcases q3 with ⟨h0, -⟩ | ⟨-, a, h1, h2⟩
    · omega
    · exact ⟨a, h1, hq ▸ h2⟩

/-- With the median, pixel `(y,x)` is the median (C26) of the pixels of the chosen sources. -/
theorem C215_median (o : Opts) (ids : Option (Bound × Bound)) (cube : Vec K) (n h w : Nat) (hc : IsCube cube n h w) (l : List Nat) (hl : chosen ids n = .ok (some l)) (hne : l ≠ [])
    (hm : o.median = true ∧ o.mean = false) (hb : o.bstrap = false) (draws : List (List Nat)) : ∃ r, run o ids cube .none draws = .ok (some ⟨r, none⟩) ∧ r.dims = [h, w] ∧ r.data.length = h * w ∧
      ∀ y x, y < h → x < w → ∃ a, r.data[y * w + x]? = some (some a) ∧ Math.IsOrderStat ((pixels cube h w l y x).map some) (l.length / 2) a := by
  obtain ⟨s, r, s1, r1, r2, r3, r4⟩ := median_of cube n h w hc l (chosen_mem hl) hne
  have hn : cube.dims.getD 0 0 = n := by rw [hc.1]; rfl
  refine ⟨r, ?_, r2, r3, r4⟩
  unfold run
  simp only [hn, hl, Res.ok_bind, s1, useMedian, hm, Bool.not_false, Bool.and_self, if_true, r1, hb, Bool.false_eq_true, if_false]

/-- Without weights and with the mean, each bootstrap is the mean of the sources drawn among the chosen ones. (Full statement: also with weights, with the weighted mean.) -/
theorem C215_bootstrap_partial (o : Opts) (ids : Option (Bound × Bound)) (cube : Vec K) (n h w : Nat) (hc : IsCube cube n h w) (h0 : 0 < h * w) (l : List Nat) (hl : chosen ids n = .ok (some l))
    (hm : o.median = false ∨ o.mean = true) (hb : o.bstrap = true) (draws : List (List Nat)) (hd : ∀ d ∈ draws, ∀ i ∈ d, i < l.length) (hne : draws ≠ []) (hW : draws.length < W) :
    ∃ r b, run o ids cube .none draws = .ok (some ⟨r, some b⟩) ∧ IsStack b draws.length h w fun k y x => Stats.mean (pixels cube h w ((draws.getD k []).map fun i => l.getD i 0) y x) := by
  obtain ⟨s, s1, s2, s3⟩ := select_spec cube n h w hc l (chosen_mem hl)
  obtain ⟨r, r1, -⟩ := C168_mean s l.length h w s2
  obtain ⟨b, b1, b2, b3, b4⟩ := C168_bootstrap s l.length h w s2 h0 draws hd hne hW
  have hu : useMedian o = false := by
    unfold useMedian
    rcases hm with h | h <;> simp [h]
  have hn : cube.dims.getD 0 0 = n := by rw [hc.1]; rfl
  refine ⟨r, b, ?_, b2, b3, fun k y x hk hy hx => ?_⟩
  · unfold run
    simp only [hn, hl, Res.ok_bind, s1, hu, Bool.false_eq_true, if_false, r1, hb, if_true, b1]
  · rw [b4 k y x hk hy hx]
    dsimp only
    rw [sub_pix cube s h w l y x (s3 y x hy hx) _ fun i hi => hd (draws.getD k []) (by rw [List.getD_eq_getElem?_getD, List.getElem?_eq_getElem hk]; exact List.getElem_mem _) i hi]

open Classical in
/-- With the median, each bootstrap is the median of the sources drawn among the chosen ones. -/
theorem C215_median_bootstrap (o : Opts) (ids : Option (Bound × Bound)) (cube : Vec K) (n h w : Nat) (hc : IsCube cube n h w) (h0 : 0 < h * w) (l : List Nat) (hl : chosen ids n = .ok (some l)) (hl0 : l ≠ [])
    (hm : o.median = true ∧ o.mean = false) (hb : o.bstrap = true) (draws : List (List Nat)) (hd : ∀ d ∈ draws, d ≠ [] ∧ ∀ i ∈ d, i < l.length) (hne : draws ≠ []) (hW : draws.length < W) :
    ∃ r b, run o ids cube .none draws = .ok (some ⟨r, some b⟩) ∧ b.dims = [draws.length, h, w] ∧ ∀ k d y x, draws[k]? = some d → y < h → x < w →
      ∃ a, b.data[(k * h + y) * w + x]? = some (some a) ∧ Math.IsOrderStat ((pixels cube h w (d.map fun i => l.getD i 0) y x).map some) (d.length / 2) a := by
  obtain ⟨s, s1, s2, s3⟩ := select_spec cube n h w hc l (chosen_mem hl)
  obtain ⟨s', r, t1, r1, -⟩ := median_of cube n h w hc l (chosen_mem hl) hl0
  rw [s1] at t1
  obtain rfl := Res.ok.inj t1
  have key : ∀ d ∈ draws, ∃ u i, select s d = .ok u ∧ qstackMedian ⟨u.data.map some, u.dims⟩ = .ok i ∧ i.dims = [h, w] ∧ i.data.length = h * w ∧
      ∀ y x, y < h → x < w → ∃ a, i.data[y * w + x]? = some (some a) ∧ Math.IsOrderStat ((pixels s h w d y x).map some) (d.length / 2) a := fun d hdm =>
    median_of s l.length h w s2 d (hd d hdm).2 (hd d hdm).1
  let img : List Nat → Res (Vec (Option K)) := fun d => select s d >>= fun u => qstackMedian ⟨u.data.map some, u.dims⟩
  let g : List Nat → Nat → Nat → Option K := fun d y x => if e : ∃ i, img d = .ok i then (e.choose.data[y * w + x]?).getD none else none
  obtain ⟨b, b1, b2⟩ := boot_loop h w h0 img g [] (medianBootstrap s) (fun _ => rfl) (by
      intro c L bs i r hi hr
      obtain ⟨u, u1, u2⟩ := Res.bind_eq_ok.1 hi
      rw [medianBootstrap, u1, Res.ok_bind, u2, Res.ok_bind, hr, Res.ok_bind]) draws 0 (Vec.empty 3) (fun _ _ _ => none) (by
      intro d hdm
      obtain ⟨u, i, u1, i1, i2, i3, i4⟩ := key d hdm
      have hi : img d = .ok i := by show (select s d >>= _) = _; rw [u1, Res.ok_bind]; exact i1
      refine ⟨i, hi, i2, i3, fun y x hy hx => ?_⟩
      have e : ∃ i, img d = .ok i := ⟨i, hi⟩
      have ec : e.choose = i := (Res.ok.inj (hi.symm.trans e.choose_spec)).symm
      obtain ⟨a, a1, -⟩ := i4 y x hy hx
      show _ = some (if e : ∃ i, img d = .ok i then (e.choose.data[y * w + x]?).getD none else none)
      rw [dif_pos e, ec, a1]; rfl) (by omega) (Or.inl ⟨rfl, rfl⟩) (by
        have := List.length_pos_of_ne_nil hne
        omega)
  have hn : cube.dims.getD 0 0 = n := by rw [hc.1]; rfl
  rw [Nat.zero_add] at b2
  refine ⟨r, b, ?_, b2.1, fun k d y x hk hy hx => ?_⟩
  · unfold run
    simp only [hn, hl, Res.ok_bind, s1, useMedian, hm, Bool.not_false, Bool.and_self, if_true, r1, hb, b1]
  · obtain ⟨hk1, hk2⟩ := List.getElem?_eq_some_iff.1 hk
    have hdm : d ∈ draws := List.mem_of_getElem? hk
    obtain ⟨u, i, u1, i1, i2, i3, i4⟩ := key d hdm
    have hi : img d = .ok i := by show (select s d >>= _) = _; rw [u1, Res.ok_bind]; exact i1
    have e : ∃ i, img d = .ok i := ⟨i, hi⟩
    have ec : e.choose = i := (Res.ok.inj (hi.symm.trans e.choose_spec)).symm
    obtain ⟨a, a1, a2⟩ := i4 y x hy hx
    refine ⟨a, ?_, ?_⟩
    · rw [b2.2.2 k y x hk1 hy hx]
      dsimp only
      rw [if_neg (by omega), Nat.sub_zero, List.getD_eq_getElem?_getD, hk, Option.getD_some]
      show some (if e : ∃ i, img d = .ok i then (e.choose.data[y * w + x]?).getD none else none) = _
      rw [dif_pos e, ec, a1]; rfl
    · rw [← sub_pix cube s h w l y x (s3 y x hy hx) d (hd d hdm).2]
      exact a2

example : ∃ r b, run (K := ℚ) ⟨true, false, true⟩ none ⟨[3, 5], [2, 1, 1]⟩ .none [[0, 0], [0, 1]] = .ok (some ⟨r, some b⟩) ∧ b.dims = [2, 1, 1] := by
  obtain ⟨r, b, h1, h2, -⟩ := C215_median_bootstrap (K := ℚ) ⟨true, false, true⟩ none ⟨[3, 5], [2, 1, 1]⟩ 2 1 1 ⟨rfl, rfl⟩ (by decide) [0, 1] rfl (by simp) ⟨rfl, rfl⟩ rfl [[0, 0], [0, 1]]
    (by decide) (by simp) (by decide)
  exact ⟨r, b, h1, h2⟩

/-- The weights are not used by the bootstraps: here the second source has no weight, and the bootstrap is its value. -/
theorem C215_weights_refuted : run (K := Rat) ⟨false, true, true⟩ none ⟨[0, 1], [2, 1, 1]⟩ (.wht ⟨[1, 0], [2, 1, 1]⟩) [[1, 1]] = .ok (some ⟨⟨[some 0], [1, 1]⟩, some ⟨[some 1], [1, 1, 1]⟩⟩) := by decide +kernel

omit [IsStrictOrderedRing K] in
/-- Weights together with the median are not refused (there is an error message for this, that is never reached): they are ignored. -/
theorem C215_median_refuted (o : Opts) (hm : o.median = true ∧ o.mean = false) (ids : Option (Bound × Bound)) (cube : Vec K) (wht : Weights K) (draws : List (List Nat)) :
    run o ids cube wht draws = run o ids cube .none draws := by
  unfold run
  simp only [useMedian, hm, Bool.not_false, Bool.and_self, if_true]

/-- Bounds in the wrong order stop the program. -/
theorem C215_order_refuted (n lo hi : Nat) (h1 : lo < n) (h2 : hi + 1 < lo) : chosen (some (.num lo, .num hi)) n = .abort := by
  unfold chosen
  simp only [readId]
  rw [if_pos h1, if_pos (show hi < n by omega)]
  dsimp only
  rw [Res.check_pos (show hi < n by omega), Res.ok_bind, Res.check_pos h1, Res.ok_bind, if_neg (by omega)]

/-! ### C216 -/

variable [FloorRing K]

/-- A source whose position is a pixel is already centred: no pixel changes but the last line and the last column. (Full statement: for all positions `(x,y)` of the source, pixel `(j,i)` is the
image at `(x - hsize + i, y - hsize + j)`, for all the pixels.) -/
theorem C216_centre_partial (cut : Img K) (hg : (Psf.asMap cut).Good) (hs : cut.nx < 2 ^ 62 ∧ cut.ny < 2 ^ 62) (X Y : Int) : ∃ r, subpixel cut (X : K) (Y : K) = .ok r ∧ r.nx = cut.nx ∧ r.ny = cut.ny ∧
    ∀ j i, j + 1 < cut.nx → i + 1 < cut.ny → r.at j i = cut.at j i := by
  have hr : ∀ Z : Int, Qstack.rnd (Z : K) = Z := by
    intro Z
    have hh : (⌊(1 / 2 : K)⌋ : Int) = 0 := by rw [Int.floor_eq_zero_iff]; constructor <;> norm_num
    unfold Qstack.rnd
    split
    · rw [Int.floor_intCast_add, hh, add_zero]
    · rw [← Int.cast_neg, Int.floor_intCast_add, hh, add_zero, neg_neg]
  obtain ⟨r, r1, -, r3, r4, r5⟩ := Psf.C158_integer_partial hg 0 0 (0 : K) (by norm_num) (by norm_num) hs
  refine ⟨r, ?_, r3, r4, fun j i hj hi => ?_⟩
  · unfold subpixel
    rw [hr, hr, sub_self, sub_self]
    simpa using r1
  · rw [r5 j i (by omega) (by omega), if_pos (by omega)]
    rfl

theorem rnd_near (x : K) : |x - (Qstack.rnd x : Int)| ≤ 1 := by
  unfold Qstack.rnd
  rw [abs_le]
  split
  · have h1 := Int.floor_le (x + 1 / 2)
    have h2 := Int.lt_floor_add_one (x + 1 / 2)
    constructor <;> linarith
  · have h1 := Int.floor_le (-x + 1 / 2)
    have h2 := Int.lt_floor_add_one (-x + 1 / 2)
    rw [Int.cast_neg]
    constructor <;> linarith

theorem near_range (x : K) (i : Nat) (h : i < 2 ^ 62) : Bil.InRange ((i : K) - (x - (Qstack.rnd x : Int))) := by
  have := abs_le.1 (rnd_near x)
  have hi : (i : K) < 2 ^ 62 := by exact_mod_cast h
  have h0 : (0 : K) ≤ i := Nat.cast_nonneg i
  constructor
  · rw [Int.le_floor]
    push_cast
    linarith
  · rw [Int.floor_lt]
    push_cast
    linarith

/-- Finding: the cutouts are moved away from the centre. If the image is a plane, the pixels of the cutout of a source at `(x,y)` are those of an image centred on the position on the other side of the
pixel, at `(2 round(x) - x, 2 round(y) - y)`: the offset is doubled. -/
theorem C216_direction_refuted (cut : Img K) (hg : (Psf.asMap cut).Good) (hsize : Nat) (a b c x y : K) (f : K → K → K) (hf : ∀ x y, f x y = a + b * y + c * x)
    (hcut : ∀ j i, j < cut.nx → i < cut.ny → (Psf.asMap cut).get j i = f ((Qstack.rnd x : Int) - hsize + i) ((Qstack.rnd y : Int) - hsize + j)) :
    ∃ r, subpixel cut x y = .ok r ∧ ∀ j i : Nat, 1 ≤ j → j + 2 < cut.nx → 1 ≤ i → i + 2 < cut.ny →
      r.at j i = some (f (2 * (Qstack.rnd x : Int) - x - hsize + i) (2 * (Qstack.rnd y : Int) - y - hsize + j)) := by
  have hd : cut.nx < 2 ^ 62 ∧ cut.ny < 2 ^ 62 := by
    have g0 : 2 ≤ cut.nx := hg.h0
    have g1 : 2 ≤ cut.ny := hg.h1
    have b0 : cut.nx * cut.ny < 2 ^ 63 := hg.small
    constructor <;> nlinarith
  have hx : ∀ i : Nat, i < cut.ny → Bil.InRange ((i : K) - (x - (Qstack.rnd x : Int))) := fun i hi => near_range x i (by omega)
  have hy : ∀ j : Nat, j < cut.nx → Bil.InRange ((j : K) - (y - (Qstack.rnd y : Int))) := fun j hj => near_range y j (by omega)
  obtain ⟨r, r1, -, r3, r4, r5⟩ := Psf.C158_translate_partial hg (y - (Qstack.rnd y : Int)) (x - (Qstack.rnd x : Int)) 0 hy hx
  refine ⟨r, r1, fun j i hj1 hj2 hi1 hi2 => ?_⟩
  obtain ⟨v, v1, v2⟩ := r5 j i (by omega) (by omega)
  have hax := abs_le.1 (rnd_near x)
  have hay := abs_le.1 (rnd_near y)
  have e1 : (1 : K) ≤ j := by exact_mod_cast hj1
  have e2 : (1 : K) ≤ i := by exact_mod_cast hi1
  have e3 : (j : K) + 2 ≤ ((cut.nx - 1 : Nat) : K) := by exact_mod_cast (show j + 2 ≤ cut.nx - 1 by omega)
  have e4 : (i : K) + 2 ≤ ((cut.ny - 1 : Nat) : K) := by exact_mod_cast (show i + 2 ≤ cut.ny - 1 by omega)
  rw [if_pos ⟨⟨by linarith, by linarith⟩, by linarith, by linarith⟩, Bil.C95_exact hg (a + b * ((Qstack.rnd y : Int) - hsize) + c * ((Qstack.rnd x : Int) - hsize)) b c 0 (fun j i hj hi => by
    rw [hcut j i hj hi, hf]; ring) (hy j (by omega)) (hx i (by omega))] at v2
  rw [v1, ← Res.ok.inj v2, hf]
  congr 1
  ring

/-- an example: a ramp of 5 by 5 pixels around a source at `x = 10 + 1/4`; the central pixel should be 41/4 -/
example : ((subpixel (⟨5, 5, (List.range 25).map fun k => ((8 + k % 5 : Nat) : Rat)⟩ : Img Rat) (41 / 4) 7).map fun r => r.at 2 2) = .ok (some (39 / 4)) := by decide +kernel

end Verif.Qstack2
