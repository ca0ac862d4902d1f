import Verif.Core.Access
import Verif.Index.Lemmas
import Mathlib.Data.List.Range
import Mathlib.Data.List.ProdSigma
import Mathlib.Tactic.LinearCombination
/-!
# Properties C05, C06: range access and multi-dimensional slicing
-/
namespace Verif.Core
open Verif Verif.Index

/-! ## specification -/

/-- The coordinates a selector designates in a dimension of length `d`, if it is legal there. -/
def Sel.coords (d : Nat) : Sel → Option (List Nat)
  | .idx i => if d = 0 then none else if i < 0 then some [(i % (d : Int)).toNat]
      else if i < d then some [i.toNat] else none
  | .full => some (List.range d)
  | .left l => if l < d then some (List.range (l + 1)) else none
  | .right f => if f < d then some ((List.range d).drop f) else none
  | .leftRight f l =>
      if l < d ∧ f ≤ l + 1 ∧ f < d then some ((List.range (l + 1)).drop f) else none
  | .ids l => if ∀ i ∈ l, i < d then some l else none

/-- range bounds are 64-bit unsigned integers -/
def Sel.fits : Sel → Prop
  | .left l => l < W
  | .right f => f < W
  | .leftRight f l => f < W ∧ l < W
  | _ => True

/-- the selectors keeping a dimension -/
def Sel.keeps : Sel → Bool
  | .idx _ => false
  | _ => true

/-! ## loops -/

theorem range_drop_map (f n : Nat) :
    (List.range (n - f)).map (fun k => f + k) = (List.range n).drop f := by
  apply List.ext_getElem
  · simp
  · intro i h1 h2; simp

theorem rangeElems_ok {d : Nat} {s : Sel} {cs : List Nat} (hs : s.coords d = some cs)
    (hk : ∀ i, s ≠ .idx i) (hl : ∀ l, s ≠ .ids l) :
    ∃ is, rangeElems d s = .ok is ∧ is.map Int.toNat = cs := by
  have key : ∀ f n : Nat, f ≤ n →
      (range2 (f : Int) (n : Int)).map Int.toNat = (List.range n).drop f := by
    intro f n hfn
    rw [range2_asc _ _ (by omega), List.map_map, ← range_drop_map]
    have : ((n : Int) - (f : Int)).toNat = n - f := by omega
    rw [this]
    apply List.map_congr_left
    intro k _
    simp only [Function.comp]; omega
  have key0 : ∀ n : Nat, (range1 n).map Int.toNat = List.range n := by
    intro n; have := key 0 n (by omega); simpa [range1] using this
  cases s with
  | idx i => exact absurd rfl (hk i)
  | ids l => exact absurd rfl (hl l)
  | full =>
    simp only [Sel.coords, Option.some.injEq] at hs
    exact ⟨_, rfl, by rw [key0, hs]⟩
  | left l =>
    simp only [Sel.coords] at hs
    split at hs
    · rename_i h
      simp only [Option.some.injEq] at hs
      refine ⟨_, by simp only [rangeElems, checkBounds, Res.check_pos h, Res.ok_bind]; rfl, ?_⟩
      rw [key0, hs]
    · simp at hs
  | right f =>
    simp only [Sel.coords] at hs
    split at hs
    · rename_i h
      simp only [Option.some.injEq] at hs
      refine ⟨_, by simp only [rangeElems, checkBounds, Res.check_pos h, Res.ok_bind]; rfl, ?_⟩
      rw [key f d (by omega), hs]
    · simp at hs
  | leftRight f l =>
    simp only [Sel.coords] at hs
    split at hs
    · rename_i h
      simp only [Option.some.injEq] at hs
      refine ⟨_, by simp only [rangeElems, checkBounds, Res.check_pos h.1, Res.check_pos h.2.2,
        Res.ok_bind]; rfl, ?_⟩
      rw [key f (l + 1) (by omega), hs]
    · simp at hs

theorem coords_lt {d : Nat} {s : Sel} {cs : List Nat} (hs : s.coords d = some cs) :
    ∀ c ∈ cs, c < d := by
  cases s with
  | idx i =>
    simp only [Sel.coords] at hs
    split at hs
    · simp at hs
    · have h1 := Int.emod_nonneg i (b := (d : Int)) (by omega)
      have h2 := Int.emod_lt_of_pos i (b := (d : Int)) (by omega)
      split at hs
      · simp at hs; subst hs; simp; omega
      · split at hs
        · simp at hs; subst hs; simp; omega
        · simp at hs
  | full => simp [Sel.coords] at hs; subst hs; simp
  | left l =>
    simp only [Sel.coords] at hs
    split at hs
    · simp at hs; subst hs; simp; omega
    · simp at hs
  | right f =>
    simp only [Sel.coords] at hs
    split at hs
    · simp only [Option.some.injEq] at hs; subst hs
      intro c hc; have := List.mem_of_mem_drop hc; simpa using this
    · simp at hs
  | leftRight f l =>
    simp only [Sel.coords] at hs
    split at hs
    · simp only [Option.some.injEq] at hs; subst hs
      intro c hc; have := List.mem_of_mem_drop hc; simp at this; omega
    · simp at hs
  | ids l =>
    simp only [Sel.coords] at hs
    split at hs
    · simp at hs; subst hs; assumption
    · simp at hs

theorem loop_ok {f : Nat → Res (List Nat)} {g : Nat → List Nat} {l : List Nat}
    (h : ∀ j ∈ l, f j = .ok (g j)) : loop f l = .ok (l.flatMap g) := by
  induction l with
  | nil => rfl
  | cons a l ih =>
    simp only [loop, h a (by simp), Res.ok_bind, ih fun j hj => h j (by simp [hj])]
    simp

/-- Cartesian product, last factor fastest. -/
def cart : List (List Nat) → List (List Nat)
  | [] => [[]]
  | c :: cs => c.flatMap fun x => (cart cs).map (x :: ·)

/-- coordinates of all selectors -/
def allCoords : List Nat → List Sel → Option (List (List Nat))
  | [], [] => some []
  | d :: ds, s :: ss => do
    let c ← s.coords d
    let cs ← allCoords ds ss
    pure (c :: cs)
  | _, _ => none

theorem makeIndices_ok : ∀ (dims : List Nat) (sels : List Sel) (css : List (List Nat)) (ivx : Nat),
    allCoords dims sels = some css →
    makeIndices dims sels ivx = .ok ((cart css).map fun x => ivx + rowMajor dims x)
  | [], [], css, ivx, h => by
    simp [allCoords] at h; subst h; simp [makeIndices, cart, rowMajor]
  | [], _ :: _, css, ivx, h => by simp [allCoords] at h
  | _ :: _, [], css, ivx, h => by simp [allCoords] at h
  | d :: ds, s :: ss, css, ivx, h => by
    simp only [allCoords, Option.bind_eq_bind, Option.bind_eq_some_iff, Option.pure_def,
      Option.some.injEq] at h
    obtain ⟨c, hc, cs, hcs, rfl⟩ := h
    have ih : ∀ j, makeIndices ds ss (ivx + j * ds.prod) =
        .ok ((cart cs).map fun x => ivx + rowMajor (d :: ds) (j :: x)) := by
      intro j
      rw [makeIndices_ok ds ss cs _ hcs]
      simp only [rowMajor, Nat.add_assoc]
    have fin : (cart (c :: cs)).map (fun x => ivx + rowMajor (d :: ds) x) =
        c.flatMap fun j => (cart cs).map fun x => ivx + rowMajor (d :: ds) (j :: x) := by
      simp only [cart, List.map_flatMap, List.map_map]; rfl
    rw [fin]
    have rng : (∀ i, s ≠ .idx i) → (∀ l, s ≠ .ids l) →
        makeIndices (d :: ds) (s :: ss) ivx =
          .ok (c.flatMap fun j => (cart cs).map fun x => ivx + rowMajor (d :: ds) (j :: x)) := by
      intro h1 h2
      obtain ⟨is, e1, e2⟩ := rangeElems_ok hc h1 h2
      have : makeIndices (d :: ds) (s :: ss) ivx = (do
          loop (fun j => makeIndices ds ss (ivx + j * ds.prod))
            ((← rangeElems d s).map Int.toNat)) := by
        cases s with
        | idx i => exact absurd rfl (h1 i)
        | ids l => exact absurd rfl (h2 l)
        | _ => rfl
      rw [this, e1, Res.ok_bind, e2]
      exact loop_ok fun j _ => ih j
    cases s with
    | idx i =>
      have hi : ∃ k, toIdxSigned d i = .ok k ∧ c = [k] := by
        rw [toIdxSigned_eq]
        simp only [Sel.coords] at hc
        split at hc
        · simp at hc
        · rename_i h0; rw [if_neg h0]
          split at hc
          · rename_i h1; simp at hc; exact ⟨_, if_pos h1, hc.symm⟩
          · rename_i h1; rw [if_neg h1]
            split at hc
            · rename_i h2; simp at hc; exact ⟨_, if_pos h2, hc.symm⟩
            · simp at hc
      obtain ⟨k, hk, rfl⟩ := hi
      simp only [makeIndices, hk, Res.ok_bind, ih]
      simp
    | ids l =>
      simp only [Sel.coords] at hc
      split at hc
      · rename_i hl
        simp at hc; subst hc
        simp only [makeIndices]
        apply loop_ok
        intro j hj
        simp only [toIdxUnsigned, if_pos (hl j hj), Res.ok_bind, ih]
      · simp at hc
    | full => exact rng (by simp) (by simp)
    | left l => exact rng (by simp) (by simp)
    | right f => exact rng (by simp) (by simp)
    | leftRight f l => exact rng (by simp) (by simp)

/-- lengths of the coordinate lists of the kept dimensions -/
def keptLengths : List Sel → List (List Nat) → List Nat
  | s :: ss, c :: cs => if s.keeps then c.length :: keptLengths ss cs else keptLengths ss cs
  | _, _ => []

/-- substitute the view position `ks` in the selectors: the parent multi-index -/
def subst : List Sel → List (List Nat) → List Nat → List Nat
  | s :: ss, c :: cs, ks =>
    if s.keeps then
      match ks with
      | k :: ks => c.getD k 0 :: subst ss cs ks
      | [] => []
    else c.getD 0 0 :: subst ss cs ks
  | _, _, _ => []

theorem rangeSize_coords {d : Nat} {s : Sel} {c : List Nat} (h : s.coords d = some c)
    (hd : d < W) (hk : s.keeps) : rangeSize d s = c.length := by
  cases s with
  | idx i => simp [Sel.keeps] at hk
  | full => simp [Sel.coords] at h; subst h; simp [rangeSize]
  | left l =>
    simp only [Sel.coords] at h
    split at h
    · simp at h; subst h; simp [rangeSize]; exact Nat.mod_eq_of_lt (by omega)
    · simp at h
  | right f =>
    simp only [Sel.coords] at h
    split at h
    · simp only [Option.some.injEq] at h; subst h
      simp only [rangeSize, sub64, List.length_drop, List.length_range]
      have : f % W = f := Nat.mod_eq_of_lt (by omega)
      rw [this]
      have e : d + (W - f) = W + (d - f) := by omega
      rw [e, Nat.add_mod_left, Nat.mod_eq_of_lt (by omega)]
    · simp at h
  | leftRight f l =>
    simp only [Sel.coords] at h
    split at h
    · simp only [Option.some.injEq] at h; subst h
      simp only [rangeSize, sub64, List.length_drop, List.length_range]
      have e1 : f % W = f := Nat.mod_eq_of_lt (by omega)
      have e2 : (l + 1) % W = l + 1 ∨ l + 1 = W := by
        by_cases h : l + 1 < W
        · exact .inl (Nat.mod_eq_of_lt h)
        · exact .inr (by omega)
      have e3 : (l + 1) % W = l + 1 := by
        rcases e2 with h | h
        · exact h
        · omega
      rw [e1, e3]
      have e : (l + 1) + (W - f) = W + (l + 1 - f) := by omega
      rw [e, Nat.add_mod_left, Nat.mod_eq_of_lt (by omega)]
    · simp at h
  | ids l =>
    simp only [Sel.coords] at h
    split at h
    · simp at h; subst h; simp [rangeSize]
    · simp at h

theorem viewDims_ok : ∀ (dims : List Nat) (sels : List Sel) (css : List (List Nat)),
    allCoords dims sels = some css → (∀ d ∈ dims, d < W) →
    viewDims dims sels = keptLengths sels css
  | [], [], css, h, _ => by simp [allCoords] at h; subst h; rfl
  | [], _ :: _, css, h, _ => by simp [allCoords] at h
  | _ :: _, [], css, h, _ => by simp [allCoords] at h
  | d :: ds, s :: ss, css, h, hd => by
    simp only [allCoords, Option.bind_eq_bind, Option.bind_eq_some_iff, Option.pure_def,
      Option.some.injEq] at h
    obtain ⟨c, hc, cs, hcs, rfl⟩ := h
    have ih := viewDims_ok ds ss cs hcs fun x hx => hd x (by simp [hx])
    have hr := fun hk => rangeSize_coords hc (hd d (by simp)) hk
    cases s <;> simp_all [viewDims, keptLengths, Sel.keeps]

theorem cart_length (css : List (List Nat)) : (cart css).length = (css.map List.length).prod := by
  induction css with
  | nil => rfl
  | cons c cs ih => simp [cart, ih, List.length_flatMap, List.map_const']

theorem scalar_length {d : Nat} {s : Sel} {c : List Nat} (h : s.coords d = some c)
    (hk : s.keeps = false) : c.length = 1 := by
  cases s with
  | idx i =>
    simp only [Sel.coords] at h
    split at h
    · simp at h
    · split at h
      · simp at h; subst h; rfl
      · split at h
        · simp at h; subst h; rfl
        · simp at h
  | _ => simp [Sel.keeps] at hk

theorem kept_prod : ∀ (dims : List Nat) (sels : List Sel) (css : List (List Nat)),
    allCoords dims sels = some css → (keptLengths sels css).prod = (css.map List.length).prod
  | [], [], css, h => by simp [allCoords] at h; subst h; rfl
  | [], _ :: _, css, h => by simp [allCoords] at h
  | _ :: _, [], css, h => by simp [allCoords] at h
  | d :: ds, s :: ss, css, h => by
    simp only [allCoords, Option.bind_eq_bind, Option.bind_eq_some_iff, Option.pure_def,
      Option.some.injEq] at h
    obtain ⟨c, hc, cs, hcs, rfl⟩ := h
    have ih := kept_prod ds ss cs hcs
    simp only [keptLengths]
    cases hk : s.keeps with
    | true => simp [ih]
    | false => simp [ih, scalar_length hc hk]

theorem cart_inRange : ∀ (dims : List Nat) (sels : List Sel) (css : List (List Nat)),
    allCoords dims sels = some css → ∀ x ∈ cart css, InRange dims x
  | [], [], css, h, x, hx => by
    simp [allCoords] at h; subst h; simp [cart] at hx; subst hx; exact .nil
  | [], _ :: _, css, h, x, hx => by simp [allCoords] at h
  | _ :: _, [], css, h, x, hx => by simp [allCoords] at h
  | d :: ds, s :: ss, css, h, x, hx => by
    simp only [allCoords, Option.bind_eq_bind, Option.bind_eq_some_iff, Option.pure_def,
      Option.some.injEq] at h
    obtain ⟨c, hc, cs, hcs, rfl⟩ := h
    simp only [cart, List.mem_flatMap, List.mem_map] at hx
    obtain ⟨j, hj, y, hy, rfl⟩ := hx
    exact .cons (coords_lt hc j hj) (cart_inRange ds ss cs hcs y hy)

theorem flatMap_const_getElem? {β : Type} (c : List Nat) (f : Nat → List β) (n : Nat)
    (hf : ∀ x ∈ c, (f x).length = n) (k r : Nat) (hk : k < c.length) (hr : r < n) :
    (c.flatMap f)[k * n + r]? = (f (c.getD k 0))[r]? := by
  induction c generalizing k with
  | nil => simp at hk
  | cons a c ih =>
    rw [List.flatMap_cons]
    have ha := hf a (by simp)
    cases k with
    | zero =>
      simp only [Nat.zero_mul, Nat.zero_add]
      rw [List.getElem?_append_left (by omega)]; simp
    | succ k =>
      have e : (k + 1) * n + r = n + (k * n + r) := by ring
      rw [e, List.getElem?_append_right (by omega), ha, Nat.add_sub_cancel_left,
        ih (fun x hx => hf x (by simp [hx])) k (by simpa using hk)]
      simp

theorem cart_subst : ∀ (dims : List Nat) (sels : List Sel) (css : List (List Nat)) (ks : List Nat),
    allCoords dims sels = some css → InRange (keptLengths sels css) ks →
    (cart css)[rowMajor (keptLengths sels css) ks]? = some (subst sels css ks)
  | [], [], css, ks, h, hk => by
    simp [allCoords] at h; subst h
    simp [keptLengths, cart, rowMajor, subst]
  | [], _ :: _, css, ks, h, _ => by simp [allCoords] at h
  | _ :: _, [], css, ks, h, _ => by simp [allCoords] at h
  | d :: ds, s :: ss, css, ks, h, hk => by
    simp only [allCoords, Option.bind_eq_bind, Option.bind_eq_some_iff, Option.pure_def,
      Option.some.injEq] at h
    obtain ⟨c, hc, cs, hcs, rfl⟩ := h
    have hlen : ∀ x ∈ c, ((cart cs).map (x :: ·)).length = (keptLengths ss cs).prod := by
      intro x _; rw [List.length_map, cart_length, kept_prod ds ss cs hcs]
    cases hs : s.keeps with
    | true =>
      simp only [keptLengths, hs, if_true] at hk ⊢
      cases hk with
      | @cons k _ ks' _ h1 h2 =>
        have ih := cart_subst ds ss cs ks' hcs h2
        simp only [rowMajor, cart, subst, hs, if_true]
        rw [flatMap_const_getElem? c _ _ hlen k _ h1 (rowMajor_lt _ _ h2), List.getElem?_map, ih]
        rfl
    | false =>
      have h1 := scalar_length hc hs
      simp only [keptLengths, hs] at hk ⊢
      have ih := cart_subst ds ss cs ks hcs hk
      simp only [cart, subst, hs]
      have := flatMap_const_getElem? c _ _ hlen 0 _ (by omega) (rowMajor_lt _ _ hk)
      rw [Nat.zero_mul, Nat.zero_add] at this
      simp only [Bool.false_eq_true, if_false]
      rw [this, List.getElem?_map, ih]
      rfl

/-! ## C06 -/

/-- C06: with legal selectors, `v(sels...)` returns a view whose dimensions are the lengths of the
non-scalar selectors, and whose element at position `ks` is the parent element at the multi-index
obtained by substituting the selected coordinates; every address is inside the vector. -/
theorem C06_correct (dims : List Nat) (sels : List Sel) (css : List (List Nat))
    (h : allCoords dims sels = some css) (hd : ∀ d ∈ dims, d < W)
    (hm : (css.map List.length).prod < maxSize) :
    ∃ as, access dims sels = .ok (keptLengths sels css, as) ∧
      as.length = (keptLengths sels css).prod ∧
      (∀ a ∈ as, a < dims.prod) ∧
      ∀ ks, InRange (keptLengths sels css) ks →
        InRange dims (subst sels css ks) ∧
        as[rowMajor (keptLengths sels css) ks]? = some (rowMajor dims (subst sels css ks)) := by
  have hv := viewDims_ok dims sels css h hd
  have hi := makeIndices_ok dims sels css 0 h
  have hp := kept_prod dims sels css h
  have hW : (css.map List.length).prod % W = (css.map List.length).prod :=
    Nat.mod_eq_of_lt (lt_trans hm (by decide))
  have hlen : ((cart css).map fun x => 0 + rowMajor dims x).length = (keptLengths sels css).prod := by
    rw [List.length_map, cart_length, hp]
  have hlt : ∀ a ∈ (cart css).map (fun x => 0 + rowMajor dims x), a < dims.prod := by
    intro a ha
    simp only [List.mem_map, Nat.zero_add] at ha
    obtain ⟨x, hx, rfl⟩ := ha
    exact rowMajor_lt dims x (cart_inRange dims sels css h x hx)
  refine ⟨_, ?_, hlen, hlt, fun ks hks => ?_⟩
  · simp only [access, hv, hp, hW, alloc, if_pos hm, Res.ok_bind, hi]
    rw [if_pos ⟨by rw [hlen, hp], hlt⟩]
  · have := cart_subst dims sels css ks h hks
    refine ⟨cart_inRange dims sels css h _ (List.mem_of_getElem? this), ?_⟩
    rw [List.getElem?_map, this]; simp

example : allCoords [3, 4, 5] [.leftRight 1 2, .idx (-1), .ids [4, 0, 4]] =
    some [[1, 2], [3], [4, 0, 4]] := by decide

example : access [3, 4, 5] [.leftRight 1 2, .idx (-1), .ids [4, 0, 4]] =
    .ok ([2, 3], [39, 35, 39, 59, 55, 59]) := by
  have h2 := makeIndices_ok [3, 4, 5] [.leftRight 1 2, .idx (-1), .ids [4, 0, 4]]
    [[1, 2], [3], [4, 0, 4]] 0 (by decide)
  have e1 : viewDims [3, 4, 5] [.leftRight 1 2, .idx (-1), .ids [4, 0, 4]] = [2, 3] := by decide
  simp only [access, e1, h2]
  decide

/-! ### illegal selectors -/

theorem loop_safe {f : Nat → Res (List Nat)} (h : ∀ j, (f j).Safe) (l : List Nat) :
    (loop f l).Safe := by
  induction l with
  | nil => trivial
  | cons a l ih =>
    simp only [loop]
    have := h a
    cases ha : f a with
    | ok x => cases hb : loop f l <;> simp_all
    | abort => trivial
    | ub => simp_all
    | diverge => simp_all

theorem loop_abort {f : Nat → Res (List Nat)} (h : ∀ j, (f j).Safe) {l : List Nat} {j : Nat}
    (hj : j ∈ l) (hf : f j = .abort) : loop f l = .abort := by
  induction l with
  | nil => simp at hj
  | cons a l ih =>
    simp only [loop]
    have hs := h a
    rcases List.mem_cons.1 hj with rfl | hj
    · rw [hf]; rfl
    · cases ha : f a with
      | ok x => simp [ih hj]
      | abort => rfl
      | ub => simp_all
      | diverge => simp_all

theorem rangeElems_safe (d : Nat) (s : Sel) : (rangeElems d s).Safe := by
  cases s with
  | left l => by_cases h : l < d <;> simp [rangeElems, checkBounds, Res.check, h]
  | right f => by_cases h : f < d <;> simp [rangeElems, checkBounds, Res.check, h]
  | leftRight f l =>
    by_cases h : l < d <;> by_cases h2 : f < d <;> simp [rangeElems, checkBounds, Res.check, h, h2]
  | _ => simp [rangeElems, checkBounds]

theorem toIdxUnsigned_safe (d j : Nat) : (toIdxUnsigned d j).Safe := by
  unfold toIdxUnsigned; split <;> trivial

theorem bind_safe {α β : Type} {x : Res α} {f : α → Res β} (hx : x.Safe) (hf : ∀ a, (f a).Safe) :
    (x >>= f).Safe := by
  cases x with
  | ok a => exact hf a
  | abort => trivial
  | ub => exact hx
  | diverge => exact hx

theorem makeIndices_safe : ∀ (dims : List Nat) (sels : List Sel) (ivx : Nat),
    (makeIndices dims sels ivx).Safe
  | [], [], _ => trivial
  | [], _ :: _, _ => trivial
  | _ :: _, [], _ => trivial
  | d :: ds, s :: ss, ivx => by
    have ih := fun j => makeIndices_safe ds ss (ivx + j * ds.prod)
    cases s with
    | idx i => exact bind_safe (toIdxSigned_safe d i) ih
    | ids l => exact loop_safe (fun j => bind_safe (toIdxUnsigned_safe d j) ih) l
    | _ => exact bind_safe (rangeElems_safe d _) fun _ => loop_safe ih _

/-- The selector names something outside a dimension of length `d`: an index or a range bound. -/
def Sel.outside (d : Nat) : Sel → Prop
  | .idx i => d = 0 ∨ (d : Int) ≤ i
  | .full => False
  | .left l => d ≤ l
  | .right f => d ≤ f
  | .leftRight f l => d ≤ l ∨ d ≤ f
  | .ids l => ∃ i ∈ l, d ≤ i

theorem makeIndices_outside (d : Nat) (ds : List Nat) (s : Sel) (ss : List Sel) (ivx : Nat)
    (h : s.outside d) : makeIndices (d :: ds) (s :: ss) ivx = .abort := by
  have ih := fun j => makeIndices_safe ds ss (ivx + j * ds.prod)
  cases s with
  | idx i =>
    simp only [Sel.outside] at h
    have : toIdxSigned d i = .abort := by
      rw [toIdxSigned_eq]
      by_cases h0 : d = 0
      · rw [if_pos h0]
      · rw [if_neg h0, if_neg (by omega), if_neg (by omega)]
    simp [makeIndices, this]
  | full => exact absurd h id
  | left l =>
    simp only [Sel.outside] at h
    have : ¬ l < d := by omega
    simp [makeIndices, rangeElems, checkBounds, Res.check, this]
  | right f =>
    simp only [Sel.outside] at h
    have : ¬ f < d := by omega
    simp [makeIndices, rangeElems, checkBounds, Res.check, this]
  | leftRight f l =>
    simp only [Sel.outside] at h
    by_cases h1 : l < d
    · have : ¬ f < d := by omega
      simp [makeIndices, rangeElems, checkBounds, Res.check, this, h1]
    · simp [makeIndices, rangeElems, checkBounds, Res.check, h1]
  | ids l =>
    obtain ⟨i, hi, hdi⟩ := h
    refine loop_abort (fun j => bind_safe (toIdxUnsigned_safe d j) ih) hi ?_
    have : ¬ i < d := by omega
    simp [toIdxUnsigned, this]

theorem makeIndices_outside_at : ∀ (pd : List Nat) (ps : List Sel) (css : List (List Nat)) (d : Nat)
    (ds : List Nat) (s : Sel) (ss : List Sel) (ivx : Nat),
    allCoords pd ps = some css → (∀ c ∈ css, c ≠ []) → s.outside d →
    makeIndices (pd ++ d :: ds) (ps ++ s :: ss) ivx = .abort
  | [], [], css, d, ds, s, ss, ivx, _, _, hs => makeIndices_outside d ds s ss ivx hs
  | [], _ :: _, css, _, _, _, _, _, h, _, _ => by simp [allCoords] at h
  | _ :: _, [], css, _, _, _, _, _, h, _, _ => by simp [allCoords] at h
  | p :: pd, q :: ps, css, d, ds, s, ss, ivx, h, hne, hs => by
    simp only [allCoords, Option.bind_eq_bind, Option.bind_eq_some_iff, Option.pure_def,
      Option.some.injEq] at h
    obtain ⟨c, hc, cs, hcs, rfl⟩ := h
    have ih := fun j => makeIndices_outside_at pd ps cs d ds s ss j hcs
      (fun x hx => hne x (by simp [hx])) hs
    have hcn : c ≠ [] := hne c (by simp)
    obtain ⟨x, hx⟩ := List.exists_mem_of_ne_nil c hcn
    simp only [List.cons_append]
    cases q with
    | idx i =>
      simp only [makeIndices, ih]
      have := toIdxSigned_safe p i
      cases hi : toIdxSigned p i <;> simp_all
    | ids l =>
      simp only [Sel.coords] at hc
      split at hc
      · simp at hc; subst hc
        rename_i hl
        simp only [makeIndices, ih]
        refine loop_abort (fun j => bind_safe (toIdxUnsigned_safe p j) fun _ => Res.safe_abort) hx ?_
        simp [toIdxUnsigned, hl x hx]
      · simp at hc
    | full =>
      obtain ⟨is, e1, e2⟩ := rangeElems_ok hc (by simp) (by simp)
      simp only [makeIndices, e1, Res.ok_bind, e2, ih]
      exact loop_abort (fun _ => Res.safe_abort) hx rfl
    | left l =>
      obtain ⟨is, e1, e2⟩ := rangeElems_ok hc (by simp) (by simp)
      simp only [makeIndices, e1, Res.ok_bind, e2, ih]
      exact loop_abort (fun _ => Res.safe_abort) hx rfl
    | right f =>
      obtain ⟨is, e1, e2⟩ := rangeElems_ok hc (by simp) (by simp)
      simp only [makeIndices, e1, Res.ok_bind, e2, ih]
      exact loop_abort (fun _ => Res.safe_abort) hx rfl
    | leftRight f l =>
      obtain ⟨is, e1, e2⟩ := rangeElems_ok hc (by simp) (by simp)
      simp only [makeIndices, e1, Res.ok_bind, e2, ih]
      exact loop_abort (fun _ => Res.safe_abort) hx rfl

/-- An index or bound outside its dimension aborts, provided the earlier selectors are legal and
select something (otherwise the later selectors are not looked at and the result is empty). -/
theorem C06_outside_aborts (pd : List Nat) (ps : List Sel) (css : List (List Nat)) (d : Nat)
    (ds : List Nat) (s : Sel) (ss : List Sel) (h : allCoords pd ps = some css)
    (hne : ∀ c ∈ css, c ≠ []) (hs : s.outside d) :
    access (pd ++ d :: ds) (ps ++ s :: ss) = .abort := by
  simp only [access, makeIndices_outside_at pd ps css d ds s ss 0 h hne hs]
  unfold alloc
  split <;> rfl

example : allCoords [3] [.full] = some [[0, 1, 2]] ∧ (Sel.left 4).outside 4 := by
  constructor
  · decide
  · simp [Sel.outside]

/-! ### safety for arbitrary selectors -/

theorem loop_len {f : Nat → Res (List Nat)} {n lo hi : Nat} {l as : List Nat}
    (hf : ∀ j ∈ l, ∀ x, f j = .ok x → x.length = n ∧ ∀ a ∈ x, lo ≤ a ∧ a < hi)
    (h : loop f l = .ok as) : as.length = l.length * n ∧ ∀ a ∈ as, lo ≤ a ∧ a < hi := by
  induction l generalizing as with
  | nil => simp [loop] at h; subst h; simp
  | cons j l ih =>
    simp only [loop] at h
    rw [Res.bind_eq_ok] at h
    obtain ⟨x, hx, h⟩ := h
    rw [Res.bind_eq_ok] at h
    obtain ⟨y, hy, h⟩ := h
    simp only [Res.ok.injEq] at h; subst h
    obtain ⟨h1, h2⟩ := hf j (by simp) x hx
    obtain ⟨h3, h4⟩ := ih (fun j hj => hf j (by simp [hj])) hy
    refine ⟨by simp [h1, h3]; ring, ?_⟩
    intro a ha
    rcases List.mem_append.1 ha with ha | ha
    · exact h2 a ha
    · exact h4 a ha

/-- `a` and `b` agree modulo `2^64` up to sign. -/
def PM (a b : Nat) : Prop := a % W = b % W ∨ (a + b) % W = 0

theorem pm_dvd {a b : Nat} : PM a b ↔ (W : Int) ∣ a - b ∨ (W : Int) ∣ a + b := by
  unfold PM W
  constructor
  · rintro (h | h)
    · left; omega
    · right; omega
  · rintro (h | h)
    · left; omega
    · right; omega

theorem PM.mul {a b c d : Nat} (h1 : PM a b) (h2 : PM c d) : PM (a * c) (b * d) := by
  rw [pm_dvd] at *
  push_cast
  rcases h1 with ⟨x, hx⟩ | ⟨x, hx⟩ <;> rcases h2 with ⟨y, hy⟩ | ⟨y, hy⟩
  · left; exact ⟨x * c + b * y, by linear_combination c * hx + b * hy⟩
  · right; exact ⟨x * c + b * y, by linear_combination c * hx + b * hy⟩
  · right; exact ⟨x * c - b * y, by linear_combination c * hx - b * hy⟩
  · left; exact ⟨x * c - b * y, by linear_combination c * hx - b * hy⟩

theorem PM.refl (a : Nat) : PM a a := .inl rfl

/-- Whatever passes the bound checks iterates coordinates inside the dimension, as many as the
advertised size modulo `2^64`, up to sign. -/
theorem rangeElems_any {d : Nat} {s : Sel} {is : List Int} (hd : d < W)
    (hk : s.keeps) (hl : ∀ l, s ≠ .ids l) (h : rangeElems d s = .ok is) :
    PM (rangeSize d s) (is.map Int.toNat).length ∧ ∀ j ∈ is.map Int.toNat, j < d := by
  by_cases hc : ∃ c, s.coords d = some c
  · obtain ⟨c, hc⟩ := hc
    obtain ⟨is', e1, e2⟩ := rangeElems_ok hc (by rintro i rfl; simp [Sel.keeps] at hk) hl
    rw [h] at e1; cases e1
    rw [e2, rangeSize_coords hc hd hk]
    exact ⟨.refl _, coords_lt hc⟩
  · cases s with
    | idx i => simp [Sel.keeps] at hk
    | ids l => exact absurd rfl (hl l)
    | full => exact absurd ⟨_, rfl⟩ hc
    | left l =>
      by_cases h1 : l < d
      · exact absurd ⟨_, if_pos h1⟩ hc
      · simp [rangeElems, checkBounds, Res.check, h1] at h
    | right f =>
      by_cases h1 : f < d
      · exact absurd ⟨_, if_pos h1⟩ hc
      · simp [rangeElems, checkBounds, Res.check, h1] at h
    | leftRight f l =>
      by_cases h1 : l < d
      · by_cases h2 : f < d
        · by_cases h3 : f ≤ l + 1
          · exact absurd ⟨_, if_pos ⟨h1, h3, h2⟩⟩ hc
          · simp only [rangeElems, checkBounds, Res.check_pos h1, Res.check_pos h2, Res.ok_bind,
              Res.ok.injEq] at h
            rw [range2_desc _ _ (by omega)] at h
            subst h
            refine ⟨.inr ?_, ?_⟩
            · simp only [rangeSize, sub64, List.length_map, List.length_range]
              unfold W at *; omega
            · intro j hj
              simp only [List.map_map, List.mem_map, List.mem_range, Function.comp] at hj
              obtain ⟨k, hk, rfl⟩ := hj
              omega
        · simp [rangeElems, checkBounds, Res.check, h1, h2] at h
      · simp [rangeElems, checkBounds, Res.check, h1] at h

theorem makeIndices_any : ∀ (dims : List Nat) (sels : List Sel), (∀ d ∈ dims, d < W) →
    ∃ n, PM (viewDims dims sels).prod n ∧ ∀ ivx as, makeIndices dims sels ivx = .ok as →
      as.length = n ∧ ∀ a ∈ as, ivx ≤ a ∧ a < ivx + dims.prod
  | [], [], _ => ⟨1, .refl _, fun ivx as h => by simp [makeIndices] at h; subst h; simp⟩
  | [], _ :: _, _ => ⟨1, .refl _, fun ivx as h => by simp [makeIndices] at h⟩
  | _ :: _, [], _ => ⟨1, .refl _, fun ivx as h => by simp [makeIndices] at h⟩
  | d :: ds, s :: ss, hd => by
    obtain ⟨n, hn, ih⟩ := makeIndices_any ds ss fun x hx => hd x (by simp [hx])
    have body : ∀ ivx j x, j < d → makeIndices ds ss (ivx + j * ds.prod) = .ok x →
        x.length = n ∧ ∀ a ∈ x, ivx ≤ a ∧ a < ivx + (d :: ds).prod := by
      intro ivx j x hj hx
      obtain ⟨h1, h2⟩ := ih _ _ hx
      refine ⟨h1, fun a ha => ?_⟩
      obtain ⟨h3, h4⟩ := h2 a ha
      have : (j + 1) * ds.prod ≤ d * ds.prod := Nat.mul_le_mul_right _ hj
      rw [Nat.add_mul, Nat.one_mul] at this
      simp only [List.prod_cons]
      omega
    have rng : s.keeps → (∀ l, s ≠ .ids l) →
        ∃ n, PM (viewDims (d :: ds) (s :: ss)).prod n ∧
          ∀ ivx as, makeIndices (d :: ds) (s :: ss) ivx = .ok as →
          as.length = n ∧ ∀ a ∈ as, ivx ≤ a ∧ a < ivx + (d :: ds).prod := by
      intro hk hl
      have hv : viewDims (d :: ds) (s :: ss) = rangeSize d s :: viewDims ds ss := by
        cases s <;> first | rfl | simp [Sel.keeps] at hk
      have hm : ∀ ivx, makeIndices (d :: ds) (s :: ss) ivx = (do
          loop (fun j => makeIndices ds ss (ivx + j * ds.prod))
            ((← rangeElems d s).map Int.toNat)) := by
        intro ivx
        cases s with
        | idx i => simp [Sel.keeps] at hk
        | ids l => exact absurd rfl (hl l)
        | _ => rfl
      cases hr : rangeElems d s with
      | ok is =>
        obtain ⟨h1, h2⟩ := rangeElems_any (hd d (by simp)) hk hl hr
        refine ⟨(is.map Int.toNat).length * n, by rw [hv, List.prod_cons]; exact h1.mul hn, ?_⟩
        intro ivx as h
        rw [hm, hr, Res.ok_bind] at h
        exact loop_len (fun j hj x hx => body ivx j x (h2 j hj) hx) h
      | _ =>
        refine ⟨_, .refl _, fun ivx as h => ?_⟩
        rw [hm, hr] at h; simp at h
    cases s with
    | idx i =>
      refine ⟨n, hn, fun ivx as h => ?_⟩
      simp only [makeIndices] at h
      rw [Res.bind_eq_ok] at h
      obtain ⟨k, hk, h⟩ := h
      exact body ivx k as (toIdxSigned_lt hk) h
    | ids l =>
      refine ⟨l.length * n, by simp only [viewDims, List.prod_cons]; exact (PM.refl _).mul hn, ?_⟩
      intro ivx as h
      simp only [makeIndices] at h
      refine loop_len (fun j _ x hx => ?_) h
      rw [Res.bind_eq_ok] at hx
      obtain ⟨k, hk, hx⟩ := hx
      unfold toIdxUnsigned at hk
      split at hk
      · rename_i hlt; simp at hk; subst hk; exact body ivx _ x hlt hx
      · simp at hk
    | full => exact rng rfl (by simp)
    | left l => exact rng rfl (by simp)
    | right f => exact rng rfl (by simp)
    | leftRight f l => exact rng rfl (by simp)

/-- Safety for arbitrary selectors, legal or not: no access reads or writes out of bounds, as long
as the number of selected elements is at most `2^63` (index lists with repetitions could select
more only with terabytes of indices; see `C06_overflow_refuted`). -/
theorem C06_safe (dims : List Nat) (sels : List Sel) (hd : ∀ d ∈ dims, d < W)
    (hm : ∀ as, makeIndices dims sels 0 = .ok as → as.length ≤ 2 ^ 63) :
    (access dims sels).Safe := by
  obtain ⟨n, hn, h⟩ := makeIndices_any dims sels hd
  simp only [access]
  by_cases ha : (viewDims dims sels).prod % W < maxSize
  · simp only [alloc, if_pos ha, Res.ok_bind]
    have hs := makeIndices_safe dims sels 0
    cases hi : makeIndices dims sels 0 with
    | ok as =>
      obtain ⟨h1, h2⟩ := h 0 as hi
      have h3 := hm as hi
      rw [Res.ok_bind, if_pos]
      · trivial
      · refine ⟨?_, fun a ha => by simpa using (h2 a ha).2⟩
        rw [h1] at h3 ⊢
        unfold PM W maxSize at *
        omega
    | abort => trivial
    | ub => simp_all
    | diverge => simp_all
  · simp [alloc, ha]

/-- Finding: two reversed ranges give a one-element view with dimensions `2^64-1` by `2^64-1`
instead of an error. -/
theorem C06_reversed_twice_refuted :
    access [4, 4] [.leftRight 3 1, .leftRight 3 1] = .ok ([2 ^ 64 - 1, 2 ^ 64 - 1], [15]) := by
  decide

/-- Finding: the size of the view is computed modulo `2^64`; two legal index lists of `2^33`
entries (on a 1x1 vector) make the code allocate nothing and write `2^66` pointers. -/
theorem C06_overflow_refuted :
    access [1, 1] [.ids (List.replicate (2 ^ 33) 0), .ids (List.replicate (2 ^ 33) 0)] = .ub := by
  have hc : allCoords [1, 1] [.ids (List.replicate (2 ^ 33) 0), .ids (List.replicate (2 ^ 33) 0)] =
      some [List.replicate (2 ^ 33) 0, List.replicate (2 ^ 33) 0] := by
    have : Sel.coords 1 (.ids (List.replicate (2 ^ 33) 0)) = some (List.replicate (2 ^ 33) 0) := by
      simp only [Sel.coords]
      rw [if_pos]
      intro i hi
      rw [List.eq_of_mem_replicate hi]; decide
    simp only [allCoords, this]; rfl
  have hi := makeIndices_ok _ _ _ 0 hc
  have hv : (viewDims [1, 1] [.ids (List.replicate (2 ^ 33) 0),
      .ids (List.replicate (2 ^ 33) 0)]).prod % W = 0 := by
    simp only [viewDims, rangeSize, List.length_replicate]
    decide
  simp only [access, hi, hv, alloc]
  rw [if_pos (by decide), Res.ok_bind, Res.ok_bind, if_neg]
  rintro ⟨h, -⟩
  rw [List.length_map, cart_length] at h
  simp only [List.map_cons, List.map_nil, List.length_replicate] at h
  revert h; decide

/-! ## C05 -/

/-- C05, complete contract of `v[rng]` for every kind of range: the elements named by the range in
order if it is legal, an abort otherwise (bound outside the vector, or reversed bounds). -/
theorem C05_range_access (size : Nat) (s : Sel) (hs : size < maxSize) (hk : s.keeps)
    (hl : ∀ l, s ≠ .ids l) (hW : s.fits) :
    bracket size s = match s.coords size with | some c => .ok c | none => .abort := by
  have hsw : size < W := lt_trans hs (by decide)
  cases hc : s.coords size with
  | some c =>
    obtain ⟨is, e1, e2⟩ := rangeElems_ok hc (by rintro i rfl; simp [Sel.keeps] at hk) hl
    have hlen := rangeSize_coords hc hsw hk
    have hlt := coords_lt hc
    have hcl : c.length ≤ size := by
      cases s with
      | idx i => simp [Sel.keeps] at hk
      | ids l => exact absurd rfl (hl l)
      | full => simp [Sel.coords] at hc; subst hc; simp
      | left l =>
        simp only [Sel.coords] at hc
        split at hc
        · simp at hc; subst hc; simp; omega
        · simp at hc
      | right f =>
        simp only [Sel.coords] at hc
        split at hc
        · simp at hc; subst hc; simp
        · simp at hc
      | leftRight f l =>
        simp only [Sel.coords] at hc
        split at hc
        · simp at hc; subst hc; simp; omega
        · simp at hc
    simp only [bracket, hlen, alloc, e1, e2, Res.ok_bind]
    rw [if_pos (by omega), Res.ok_bind, if_pos ⟨trivial, hlt⟩]
  | none =>
    simp only [bracket, alloc]
    split
    · rw [Res.ok_bind]
      cases s with
      | idx i => simp [Sel.keeps] at hk
      | ids l => exact absurd rfl (hl l)
      | full => simp [Sel.coords] at hc
      | left l =>
        have : ¬ l < size := by intro h; simp [Sel.coords, h] at hc
        simp [rangeElems, checkBounds, Res.check, this]
      | right f =>
        have : ¬ f < size := by intro h; simp [Sel.coords, h] at hc
        simp [rangeElems, checkBounds, Res.check, this]
      | leftRight f l =>
        by_cases h1 : l < size
        · by_cases h2 : f < size
          · have h3 : ¬ f ≤ l + 1 := by intro h; simp [Sel.coords, h, h1, h2] at hc
            rename_i hal
            exfalso
            simp only [rangeSize, sub64] at hal
            unfold Sel.fits W maxSize at *; omega
          · simp [rangeElems, checkBounds, Res.check, h1, h2]
        · simp [rangeElems, checkBounds, Res.check, h1]
    · rfl

example : bracket 5 (.leftRight 1 3) = .ok [1, 2, 3] ∧ bracket 5 (.right 3) = .ok [3, 4] ∧
    bracket 5 (.left 5) = .abort ∧ bracket 5 (.leftRight 4 1) = .abort := by decide

/-- No range access is undefined behaviour and every one returns. -/
theorem C05_safe (size : Nat) (s : Sel) (hs : size < maxSize) (hk : s.keeps)
    (hl : ∀ l, s ≠ .ids l) (hW : s.fits) :
    (bracket size s).Safe := by
  rw [C05_range_access size s hs hk hl hW]
  split <;> trivial

/-- The selected positions in index terms: position `k` of `v[first-_-last]` is element
`first + k`, and there are `last - first + 1` of them. -/
theorem C05_left_right (size first last : Nat) (hs : size < maxSize) (h1 : first ≤ last)
    (h2 : last < size) : ∃ c, bracket size (.leftRight first last) = .ok c ∧
      c.length = last + 1 - first ∧ ∀ k (h : k < c.length), c[k] = first + k := by
  have hW : size < W := lt_trans hs (by decide)
  rw [C05_range_access size (.leftRight first last) hs rfl (by simp) (show first < W ∧ last < W from ⟨by omega, by omega⟩)]
  refine ⟨(List.range (last + 1)).drop first, ?_, by simp, fun k h => by simp⟩
  simp only [Sel.coords]
  rw [if_pos ⟨h2, by omega, by omega⟩]

end Verif.Core
