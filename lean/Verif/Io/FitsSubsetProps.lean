import Verif.Io.FitsImageProps
/-!
# C134: pixels and parts of images
-/
namespace Verif.FitsImage
open Verif Verif.Core Verif.FitsTable

variable {α : Type}

/-! ### Positions -/

/-- position of a pixel, the first axis being the fastest -/
def fpos : List Nat → List Nat → Nat
  | n :: ns, i :: is => i + n * fpos ns is
  | _, _ => 0

theorem fpos_snoc : ∀ (ns is : List Nat) (n i : Nat), ns.length = is.length → fpos (ns ++ [n]) (is ++ [i]) = fpos ns is + ns.prod * i
  | [], [], n, i, _ => by simp [fpos]
  | m :: ns, j :: is, n, i, h => by
    simp only [List.cons_append, fpos, List.prod_cons]
    rw [fpos_snoc ns is n i (by simpa using h), Nat.mul_add, Nat.mul_assoc, Nat.add_assoc]

theorem offset_eq_fpos : ∀ (ds is : List Nat), ds.length = is.length → offset ds is = fpos ds.reverse is.reverse
  | [], [], _ => rfl
  | d :: ds, i :: is, h => by
    have h' : ds.length = is.length := by simpa using h
    rw [List.reverse_cons, List.reverse_cons, fpos_snoc _ _ _ _ (by simpa using h'), ← offset_eq_fpos ds is h', prod_reverse, offset, Nat.mul_comm, Nat.add_comm]

theorem inDims_snoc : ∀ (ds is : List Nat) (d i : Nat), ds.length = is.length → (InDims (ds ++ [d]) (is ++ [i]) ↔ InDims ds is ∧ i < d)
  | [], [], d, i, _ => by simp [InDims]
  | e :: ds, j :: is, d, i, h => by
    simp only [List.cons_append, InDims]
    rw [inDims_snoc ds is d i (by simpa using h)]
    tauto

theorem inDims_reverse : ∀ (ds is : List Nat), ds.length = is.length → (InDims ds.reverse is.reverse ↔ InDims ds is)
  | [], [], _ => Iff.rfl
  | d :: ds, i :: is, h => by
    have h' : ds.length = is.length := by simpa using h
    rw [List.reverse_cons, List.reverse_cons, inDims_snoc _ _ _ _ (by simpa using h'), inDims_reverse ds is h', InDims]
    tauto

theorem fpos_lt (ns is : List Nat) (h : ns.length = is.length) (hi : InDims ns is) : fpos ns is < ns.prod := by
  have h1 := offset_lt ns.reverse is.reverse ((inDims_reverse ns is h).2 hi) (by simp [h])
  rwa [offset_eq_fpos _ _ (by simp [h]), List.reverse_reverse, List.reverse_reverse, prod_reverse] at h1

/-! ### One pixel -/

theorem pix_loop (naxes p : List Nat) (hl : p.length = naxes.length) : ∀ i, i ≤ p.length → ∃ b, (List.range i).foldlM (pixStep naxes p) ⟨1, 1, true⟩ =
    .ok ⟨1 + fpos (naxes.take i) (p.reverse.take i), (naxes.take i).prod, b⟩ ∧ (b = true ↔ InDims (naxes.take i) (p.reverse.take i)) := by
  intro i
  induction i with
  | zero => exact fun _ => ⟨true, rfl, by simp [InDims]⟩
  | succ i ih =>
    intro hi
    obtain ⟨b, h1, h2⟩ := ih (by omega)
    have hn : i < naxes.length := by omega
    have hr : i < p.reverse.length := by rw [List.length_reverse]; omega
    have hx : Res.rd p (naxes.length - 1 - i) = .ok p.reverse[i] := by
      rw [Res.rd_lt (by omega), List.getElem_reverse]
      congr 2
      omega
    have hlen : (naxes.take i).length = (p.reverse.take i).length := by simp [hl]
    refine ⟨b && decide (p.reverse[i] < naxes[i]), ?_, ?_⟩
    · rw [List.range_succ, List.foldlM_append, h1]
      show ([i].foldlM (pixStep naxes p) _) = _
      rw [List.foldlM_cons]
      simp only [pixStep]
      rw [hx, Res.ok_bind, Res.rd_lt hn, Res.ok_bind, Res.ok_bind]
      rw [List.take_succ_eq_append_getElem hn, List.take_succ_eq_append_getElem hr, fpos_snoc _ _ _ _ hlen, List.prod_append, Nat.add_assoc,
        Nat.mul_comm p.reverse[i]]
      simp only [List.prod_cons, List.prod_nil, Nat.mul_one]
      rfl
    · rw [List.take_succ_eq_append_getElem hn, List.take_succ_eq_append_getElem hr, inDims_snoc _ _ _ _ hlen, Bool.and_eq_true, h2, decide_eq_true_eq]

/-- **C134** `read_pixel` returns the element of the image at this position (the last index is the one of the first axis), and fails outside of the image -/
theorem C134_pixel (c : Conv α) (f : File α) (e : ET) (t : CT) (naxes : List Nat) (px : List α) (p : List Nat)
    (h : f.hdus[f.cur]? = some (.image t naxes px)) (hn : naxes ≠ []) (hl : px.length = naxes.prod) (he : Exact (c.load e) px) :
    (p.length = naxes.length ∧ convertible e t = true ∧ InDims naxes.reverse p →
      ∃ x, readPixel c f e p = .ok x ∧ px[offset naxes.reverse p]? = some x) ∧
    (¬ (p.length = naxes.length ∧ convertible e t = true ∧ InDims naxes.reverse p) → readPixel c f e p = .abort) := by
  by_cases h1 : p.length = naxes.length
  swap
  · refine ⟨fun h' => absurd h'.1 h1, fun _ => ?_⟩
    unfold readPixel readPrep
    rw [h]
    simp only
    rw [Res.check_neg (fun h' => h1 h'.symm)]
    rfl
  by_cases h2 : convertible e t = true
  swap
  · refine ⟨fun h' => absurd h'.2.1 h2, fun _ => ?_⟩
    unfold readPixel readPrep
    rw [h]
    simp only
    rw [Res.check_pos h1.symm, Res.ok_bind, Res.check_neg h2]
    rfl
  obtain ⟨b, e1, e2⟩ := pix_loop naxes p h1 p.length (Nat.le_refl _)
  have t1 : naxes.take p.length = naxes := by rw [h1, List.take_length]
  have t2 : p.reverse.take p.length = p.reverse := List.take_of_length_le (by simp)
  rw [t1, t2] at e1 e2
  have t3 : InDims naxes p.reverse ↔ InDims naxes.reverse p := by
    rw [← inDims_reverse naxes p.reverse (by simp [h1]), List.reverse_reverse]
  rw [t3] at e2
  have e0 : readPixel c f e p = (do
      Res.check (b = true)
      let l ← readImg c e px (1 + fpos naxes p.reverse) 1
      match l with
      | [x] => .ok x
      | _ => .ub) := by
    unfold readPixel readPrep
    rw [h]
    simp only
    rw [Res.check_pos h1.symm, Res.ok_bind, Res.check_pos h2, Res.ok_bind, Res.ok_bind]
    simp only
    rw [e1, Res.ok_bind]
    rfl
  rw [e0]
  constructor
  · rintro ⟨-, -, h3⟩
    have hb : b = true := e2.2 h3
    have hlt := fpos_lt naxes p.reverse (by simp [h1]) (t3.2 h3)
    rw [← hl] at hlt
    rw [offset_eq_fpos _ _ (by simp [h1]), List.reverse_reverse]
    refine ⟨px[fpos naxes p.reverse], ?_, List.getElem?_eq_getElem hlt⟩
    rw [Res.check_pos hb, Res.ok_bind]
    unfold readImg
    rw [if_neg (by omega), if_pos (by omega)]
    have : (px.drop (1 + fpos naxes p.reverse - 1)).take 1 = [px[fpos naxes p.reverse]] := by
      rw [Nat.add_sub_cancel_left, List.drop_eq_getElem_cons hlt]
      rfl
    rw [this, exact_mapM (fun a ha => he a (by rw [List.mem_singleton] at ha; rw [ha]; exact List.getElem_mem hlt)), Res.ok_bind]
  · intro h3
    rw [Res.check_neg (fun hb => h3 ⟨h1, h2, e2.1 hb⟩)]
    rfl

/-! ### Parts -/

/-- Spec: the first index and the number of indices selected by an argument on an axis of `n` pixels -/
inductive Sel (n : Nat) : Arg → Nat → Nat → Prop
  | full : 0 < n → Sel n .full 0 n
  | left (last : Nat) : last < n → Sel n (.left last) 0 (last + 1)
  | right (first : Nat) : first < n → Sel n (.right first) first (n - first)
  | leftRight (first last : Nat) : first ≤ last → last < n → Sel n (.leftRight first last) first (last + 1 - first)
  | index (i : Nat) : i < n → Sel n (.index i) i 1

/-- Spec: arguments that are refused -/
inductive Refused (n : Nat) : Arg → Prop
  | left (last : Nat) : n ≤ last → Refused n (.left last)
  | leftRight (first last : Nat) : n ≤ last → Refused n (.leftRight first last)
  | index (i : Nat) : n ≤ i → Refused n (.index i)

/-- Spec: the others, that select nothing -/
inductive Escapes (n : Nat) : Arg → Prop
  | full : n = 0 → Escapes n .full
  | right (first : Nat) : n ≤ first → Escapes n (.right first)
  | leftRight (first last : Nat) : last < first → last < n → Escapes n (.leftRight first last)

/-- every argument is in one of the three cases -/
theorem arg_cases (n : Nat) (a : Arg) : (∃ lo k, Sel n a lo k) ∨ Refused n a ∨ Escapes n a := by
  cases a with
  | full => rcases Nat.eq_zero_or_pos n with h | h
            · exact Or.inr (Or.inr (.full h))
            · exact Or.inl ⟨_, _, .full h⟩
  | left last => rcases Nat.lt_or_ge last n with h | h
                 · exact Or.inl ⟨_, _, .left last h⟩
                 · exact Or.inr (Or.inl (.left last h))
  | right first => rcases Nat.lt_or_ge first n with h | h
                   · exact Or.inl ⟨_, _, .right first h⟩
                   · exact Or.inr (Or.inr (.right first h))
  | leftRight first last =>
    rcases Nat.lt_or_ge last n with h | h
    · rcases Nat.lt_or_ge last first with h' | h'
      · exact Or.inr (Or.inr (.leftRight first last h' h))
      · exact Or.inl ⟨_, _, .leftRight first last h' h⟩
    · exact Or.inr (Or.inl (.leftRight first last h))
  | index i => rcases Nat.lt_or_ge i n with h | h
               · exact Or.inl ⟨_, _, .index i h⟩
               · exact Or.inr (Or.inl (.index i h))

theorem sel_range {n : Nat} {a : Arg} {lo k : Nat} (h : Sel n a lo k) : axisRange n a = .ok (lo + 1, lo + k) ∧ 1 ≤ k ∧ lo + k ≤ n := by
  cases h with
  | full h => exact ⟨by simp [axisRange], by omega, by omega⟩
  | left last h => exact ⟨by simp only [axisRange]; rw [Res.check_pos h, Res.ok_bind]; simp, by omega, by omega⟩
  | right _ h => exact ⟨by simp only [axisRange]; congr 2; omega, by omega, by omega⟩
  | leftRight _ last h h' => exact ⟨by simp only [axisRange]; rw [Res.check_pos h', Res.ok_bind]; congr 2; omega, by omega, by omega⟩
  | index _ h => exact ⟨by simp only [axisRange]; rw [Res.check_pos h, Res.ok_bind], by omega, by omega⟩

theorem refused_range {n : Nat} {a : Arg} (h : Refused n a) : axisRange n a = .abort := by
  cases h with
  | left last h => simp only [axisRange]; rw [Res.check_neg (by omega)]; rfl
  | leftRight first last h => simp only [axisRange]; rw [Res.check_neg (by omega)]; rfl
  | index i h => simp only [axisRange]; rw [Res.check_neg (by omega)]; rfl

theorem escapes_range {n : Nat} {a : Arg} (h : Escapes n a) : ∃ x y, axisRange n a = .ok (x, y) ∧ (y < x ∨ n < y) := by
  cases h with
  | full h => exact ⟨_, _, rfl, by omega⟩
  | right first h => exact ⟨_, _, rfl, by omega⟩
  | leftRight first last h h' => exact ⟨first + 1, last + 1, by simp only [axisRange]; rw [Res.check_pos h', Res.ok_bind], by omega⟩

/-- the ranges of all the arguments -/
inductive Rng : List Nat → List Arg → List Nat → List Nat → Prop
  | nil : Rng [] [] [] []
  | cons {d a x y ds as xs ys} : axisRange d a = .ok (x, y) → Rng ds as xs ys → Rng (d :: ds) (a :: as) (x :: xs) (y :: ys)

theorem Rng.length {ds as xs ys} (h : Rng ds as xs ys) : ds.length = as.length ∧ xs.length = as.length ∧ ys.length = as.length := by
  induction h with
  | nil => simp
  | cons _ _ ih => simp [ih]

theorem axisRange_cases (n : Nat) (a : Arg) : (∃ x y, axisRange n a = .ok (x, y)) ∨ axisRange n a = .abort := by
  cases a with
  | full => exact Or.inl ⟨_, _, rfl⟩
  | right => exact Or.inl ⟨_, _, rfl⟩
  | left i => by_cases h : i < n
              · left; refine ⟨1, i + 1, ?_⟩; simp only [axisRange]; rw [Res.check_pos h]; rfl
              · right; simp only [axisRange]; rw [Res.check_neg h]; rfl
  | leftRight j i => by_cases h : i < n
                     · left; refine ⟨j + 1, i + 1, ?_⟩; simp only [axisRange]; rw [Res.check_pos h]; rfl
                     · right; simp only [axisRange]; rw [Res.check_neg h]; rfl
  | index i => by_cases h : i < n
               · left; refine ⟨i + 1, i + 1, ?_⟩; simp only [axisRange]; rw [Res.check_pos h]; rfl
               · right; simp only [axisRange]; rw [Res.check_neg h]; rfl

theorem rev_take (naxes : List Nat) (m : Nat) (h : m < naxes.length) : (naxes.take (m + 1)).reverse = naxes[m] :: (naxes.take m).reverse := by
  rw [List.take_succ_eq_append_getElem h, List.reverse_append]; rfl

theorem make_ok (naxes : List Nat) : ∀ (as : List Arg) (idim : Nat) (fp lp xs ys : List Nat), naxes.length = idim + as.length →
    fp.length = naxes.length → lp.length = naxes.length → Rng (naxes.take as.length).reverse as xs ys →
    makeIndices naxes idim as (fp, lp) = .ok (xs.reverse ++ fp.drop as.length, ys.reverse ++ lp.drop as.length)
  | [], idim, fp, lp, xs, ys, _, _, _, hr => by
    simp only [List.length_nil, List.take_zero, List.reverse_nil] at hr
    cases hr
    simp [makeIndices]
  | a :: as, idim, fp, lp, xs, ys, hl, h1, h2, hr => by
    rw [List.length_cons] at hl
    rw [List.length_cons, rev_take naxes as.length (by omega)] at hr
    cases hr with
    | cons hx hr =>
      rename_i x y xs ys
      have hi : naxes.length - 1 - idim = as.length := by omega
      simp only [makeIndices, hi]
      rw [Res.rd_lt (by omega), Res.ok_bind, hx, Res.ok_bind]
      simp only
      rw [make_ok naxes as (idim + 1) _ _ xs ys (by omega) (by simpa using h1) (by simpa using h2) hr]
      have hd : ∀ (l : List Nat) (z : Nat), l.length = naxes.length → (l.set as.length z).drop as.length = z :: l.drop (as.length + 1) := by
        intro l z hz
        rw [List.drop_eq_getElem_cons (by rw [List.length_set]; omega), List.getElem_set_self, List.drop_set_of_lt (by omega)]
      rw [hd fp x h1, hd lp y h2]
      simp

theorem make_abort (naxes : List Nat) : ∀ (as : List Arg) (idim : Nat) (s : List Nat × List Nat), naxes.length = idim + as.length →
    (∃ k a, as[k]? = some a ∧ axisRange ((naxes.take as.length).reverse.getD k 0) a = .abort) → makeIndices naxes idim as s = .abort
  | [], _, _, _, ⟨k, a, h, _⟩ => by simp at h
  | a :: as, idim, (fp, lp), hl, ⟨k, b, hk, hb⟩ => by
    rw [List.length_cons] at hl
    rw [List.length_cons, rev_take naxes as.length (by omega)] at hb
    have hi : naxes.length - 1 - idim = as.length := by omega
    simp only [makeIndices, hi]
    rw [Res.rd_lt (by omega), Res.ok_bind]
    rcases axisRange_cases naxes[as.length] a with ⟨x, y, h⟩ | h
    · rw [h, Res.ok_bind]
      simp only
      refine make_abort naxes as (idim + 1) _ (by omega) ?_
      cases k with
      | zero =>
        simp only [List.getElem?_cons_zero, Option.some.injEq] at hk
        subst hk
        simp only [List.getD_cons_zero] at hb
        rw [h] at hb; cases hb
      | succ k => exact ⟨k, b, by simpa using hk, by simpa using hb⟩
    · rw [h]; rfl

/-- blocks of the same size one after the other -/
theorem flatMap_get {β γ : Type} (g : β → Nat → γ) (m : Nat) : ∀ (L : List β) (i j : Nat), i < m →
    (L.flatMap fun b => (List.range m).map fun k => g b k)[i + m * j]? = (L[j]?).map fun b => g b i
  | [], i, j, _ => by simp
  | b :: L, i, j, h => by
    rw [List.flatMap_cons]
    cases j with
    | zero =>
      rw [List.getElem?_append_left (by simpa using h)]
      simp [h]
    | succ j =>
      rw [List.getElem?_append_right (by simp only [List.length_map, List.length_range]; rw [Nat.mul_succ]; omega), List.length_map, List.length_range,
        show i + m * (j + 1) - m = i + m * j by rw [Nat.mul_succ]; omega, flatMap_get g m L i j h]
      simp

/-- the contract of `fits_read_subset` on all axes -/
inductive Box : List Nat → List Nat → List Nat → Prop
  | nil : Box [] [] []
  | cons {n x y ns xs ys} : 1 ≤ x → x ≤ y → y ≤ n → Box ns xs ys → Box (n :: ns) (x :: xs) (y :: ys)

/-- number of pixels on each axis -/
def counts (xs ys : List Nat) : List Nat := List.zipWith (fun x y => y + 1 - x) xs ys

/-- positions in the image -/
def moved (xs is : List Nat) : List Nat := List.zipWith (fun x i => x - 1 + i) xs is

theorem subsetPos_spec {ns xs ys : List Nat} (h : Box ns xs ys) : (subsetPos ns xs ys).length = (counts xs ys).prod ∧
    (∀ q ∈ subsetPos ns xs ys, q < ns.prod) ∧
    ∀ is, is.length = ns.length → InDims (counts xs ys) is → (subsetPos ns xs ys)[fpos (counts xs ys) is]? = some (fpos ns (moved xs is)) := by
  induction h with
  | nil =>
    refine ⟨rfl, by simp [subsetPos], fun is hl _ => ?_⟩
    rw [List.eq_nil_of_length_eq_zero hl]
    rfl
  | cons h1 h2 h3 hb ih =>
    rename_i n x y ns xs ys
    obtain ⟨i1, i2, i3⟩ := ih
    refine ⟨?_, ?_, ?_⟩
    · simp only [subsetPos, counts, List.zipWith_cons_cons, List.prod_cons, List.length_flatMap, List.length_map, List.length_range]
      rw [List.map_const', List.sum_replicate, i1, Nat.mul_comm]
      simp [counts]
    · intro q hq
      simp only [subsetPos, List.mem_flatMap, List.mem_map, List.mem_range] at hq
      obtain ⟨b, hb', k, hk, rfl⟩ := hq
      have := i2 b hb'
      rw [List.prod_cons]
      have h4 : n * (b + 1) ≤ n * ns.prod := Nat.mul_le_mul_left n this
      rw [Nat.mul_succ] at h4
      omega
    · intro is hl hi
      cases is with
      | nil => simp at hl
      | cons i is =>
        simp only [counts, List.zipWith_cons_cons] at hi ⊢
        obtain ⟨hi1, hi2⟩ := hi
        simp only [subsetPos, fpos, moved, List.zipWith_cons_cons]
        rw [flatMap_get (fun b k => x - 1 + k + n * b) (y + 1 - x) _ _ _ hi1]
        have := i3 is (by simpa using hl) hi2
        unfold counts at this
        rw [this]
        rfl

theorem box_iff : ∀ (ns xs ys : List Nat), xs.length = ns.length → ys.length = ns.length →
    ((∀ i < ns.length, 1 ≤ xs.getD i 0 ∧ xs.getD i 0 ≤ ys.getD i 0 ∧ ys.getD i 0 ≤ ns.getD i 0) ↔ Box ns xs ys)
  | [], [], [], _, _ => ⟨fun _ => .nil, fun _ i hi => by simp at hi⟩
  | n :: ns, x :: xs, y :: ys, h1, h2 => by
    have ih := box_iff ns xs ys (by simpa using h1) (by simpa using h2)
    constructor
    · intro h
      have h0 := h 0 (by simp)
      simp only [List.getD_cons_zero] at h0
      refine .cons h0.1 h0.2.1 h0.2.2 (ih.1 fun i hi => ?_)
      have := h (i + 1) (by simpa using hi)
      simpa using this
    · intro h
      cases h with
      | cons a b c d =>
        intro i hi
        cases i with
        | zero => simpa using ⟨a, b, c⟩
        | succ i => simpa using ih.2 d i (by simpa using hi)

theorem box_snoc {ns xs ys : List Nat} {n x y : Nat} (h : Box ns xs ys) (h1 : 1 ≤ x) (h2 : x ≤ y) (h3 : y ≤ n) : Box (ns ++ [n]) (xs ++ [x]) (ys ++ [y]) := by
  induction h with
  | nil => exact .cons h1 h2 h3 .nil
  | cons a b c _ ih => exact .cons a b c ih

theorem box_reverse {ns xs ys : List Nat} (h : Box ns xs ys) : Box ns.reverse xs.reverse ys.reverse := by
  induction h with
  | nil => exact .nil
  | cons a b c _ ih =>
    rw [List.reverse_cons, List.reverse_cons, List.reverse_cons]
    exact box_snoc ih a b c

theorem Box.length {ns xs ys} (h : Box ns xs ys) : xs.length = ns.length ∧ ys.length = ns.length := by
  induction h with
  | nil => simp
  | cons _ _ _ _ ih => simp [ih]

/-- Spec: what the arguments select on each axis of the image -/
inductive Sels : List Nat → List Arg → List Nat → List Nat → Prop
  | nil : Sels [] [] [] []
  | cons {d a lo k ds as los ks} : Sel d a lo k → Sels ds as los ks → Sels (d :: ds) (a :: as) (lo :: los) (k :: ks)

theorem sels_rng {ds as los ks} (h : Sels ds as los ks) : Rng ds as (los.map (· + 1)) (List.zipWith (· + ·) los ks) ∧
    Box ds (los.map (· + 1)) (List.zipWith (· + ·) los ks) ∧ counts (los.map (· + 1)) (List.zipWith (· + ·) los ks) = ks ∧
    los.length = as.length ∧ ks.length = as.length ∧ ds.length = as.length := by
  induction h with
  | nil => exact ⟨.nil, .nil, rfl, rfl, rfl, rfl⟩
  | cons h _ ih =>
    obtain ⟨h1, h2, h3⟩ := sel_range h
    obtain ⟨i1, i2, i3, i4, i5, i6⟩ := ih
    refine ⟨.cons h1 i1, .cons (by simp only; omega) (by simp only; omega) h3 i2, ?_, by simp [i4], by simp [i5], by simp [i6]⟩
    simp only [counts, List.map_cons, List.zipWith_cons_cons]
    simp only [counts] at i3
    rw [i3]
    congr 1
    omega

theorem zipWith_reverse' {f : Nat → Nat → Nat} : ∀ (a b : List Nat), a.length = b.length → List.zipWith f a.reverse b.reverse = (List.zipWith f a b).reverse
  | [], [], _ => rfl
  | x :: a, y :: b, h => by
    have h' : a.length = b.length := by simpa using h
    rw [List.reverse_cons, List.reverse_cons, List.zipWith_append (by simpa using h'), zipWith_reverse' a b h']
    simp

theorem dims_eq (N : Nat) (fp lp : List Nat) (h1 : fp.length = N) (h2 : lp.length = N) :
    ((List.range N).map fun i => lp.getD (N - 1 - i) 0 + 1 - fp.getD (N - 1 - i) 0) = (counts fp lp).reverse := by
  apply List.ext_getElem (by simp [counts, h1, h2])
  intro i g1 g2
  simp only [List.length_map, List.length_range] at g1
  simp only [List.getElem_map, List.getElem_range, List.getElem_reverse, counts, List.getElem_zipWith, List.length_zipWith, h1, h2, Nat.min_self]
  rw [List.getD_eq_getElem?_getD, List.getD_eq_getElem?_getD, List.getElem?_eq_getElem (by omega), List.getElem?_eq_getElem (by omega), Option.getD_some,
    Option.getD_some]

theorem prep_ok (f : File α) (e : ET) (t : CT) (naxes : List Nat) (px : List α) (n : Nat) (h : f.hdus[f.cur]? = some (.image t naxes px))
    (h1 : naxes.length = n) (h2 : convertible e t = true) : readPrep f e n = .ok (naxes, px) := by
  unfold readPrep
  rw [h]
  simp only
  rw [Res.check_pos h1, Res.ok_bind, Res.check_pos h2, Res.ok_bind]

theorem rd_all (px : List α) : ∀ (L : List Nat), (∀ q ∈ L, q < px.length) → ∃ l, L.mapM (Res.rd px) = .ok l ∧ l.length = L.length ∧
    (∀ (k q : Nat), L[k]? = some q → l[k]? = px[q]?) ∧ ∀ a ∈ l, a ∈ px
  | [], _ => ⟨[], rfl, rfl, by simp, by simp⟩
  | q :: L, h => by
    obtain ⟨l, h1, h2, h3, h4⟩ := rd_all px L fun q hq => h q (by simp [hq])
    have hq := h q (by simp)
    refine ⟨px[q] :: l, ?_, by simp [h2], ?_, ?_⟩
    · rw [List.mapM_cons, Res.rd_lt hq]
      show (do let bs ← L.mapM (Res.rd px); pure (px[q] :: bs)) = _
      rw [h1]; rfl
    · intro k r hk
      cases k with
      | zero => simp only [List.getElem?_cons_zero, Option.some.injEq] at hk ⊢; subst hk; exact (List.getElem?_eq_getElem hq).symm
      | succ k => simpa using h3 k r (by simpa using hk)
    · intro a ha
      rcases List.mem_cons.1 ha with rfl | ha
      · exact List.getElem_mem hq
      · exact h4 a ha

/-- **C134** `read_subset` returns the part of the image selected by its arguments: element `i` of the result is element `lo + i` of the image -/
theorem C134_subset_partial (c : Conv α) (f : File α) (e : ET) (t : CT) (naxes : List Nat) (px : List α) (args : List Arg) (los ks : List Nat)
    (h : f.hdus[f.cur]? = some (.image t naxes px)) (hl : px.length = naxes.prod) (he : Exact (c.load e) px) (ht : convertible e t = true)
    (hs : Sels naxes.reverse args los ks) : ∃ v, readSubset c f e args = .ok v ∧ v.dims = ks ∧ v.data.length = ks.prod ∧
      ∀ is, is.length = ks.length → InDims ks is → ∃ x, v.data[offset ks is]? = some x ∧ px[offset naxes.reverse (List.zipWith (· + ·) los is)]? = some x := by
  obtain ⟨r1, r2, r3, r4, r5, r6⟩ := sels_rng hs
  have hlen : naxes.length = args.length := by simpa using r6
  set xs := los.map (· + 1) with hxs
  set ys := List.zipWith (· + ·) los ks with hys
  have hb := box_reverse r2
  rw [List.reverse_reverse] at hb
  have lx : xs.length = args.length := by rw [hxs, List.length_map, r4]
  have ly : ys.length = args.length := by rw [hys, List.length_zipWith, r4, r5, Nat.min_self]
  have hcnt : counts xs.reverse ys.reverse = ks.reverse := by
    unfold counts
    rw [zipWith_reverse' _ _ (by rw [lx, ly])]
    congr 1
  obtain ⟨s1, s2, s3⟩ := subsetPos_spec hb
  rw [hcnt] at s1 s3
  have hmk : makeIndices naxes 0 args (List.replicate args.length 0, List.replicate args.length 0) = .ok (xs.reverse, ys.reverse) := by
    rw [make_ok naxes args 0 _ _ xs ys (by omega) (by simp [hlen]) (by simp [hlen]) (by rw [← hlen, List.take_length]; exact r1)]
    simp
  have hdim : ((List.range naxes.length).map fun i => ys.reverse.getD (naxes.length - 1 - i) 0 + 1 - xs.reverse.getD (naxes.length - 1 - i) 0) = ks := by
    rw [dims_eq _ _ _ (by simp [lx, hlen]) (by simp [ly, hlen]), hcnt, List.reverse_reverse]
  obtain ⟨l, l1, l2, l3, l4⟩ := rd_all px (subsetPos naxes xs.reverse ys.reverse) (by rw [hl]; exact s2)
  have hC : readSubsetC c e naxes px xs.reverse ys.reverse = .ok l := by
    unfold readSubsetC
    rw [if_pos ⟨by simp [lx, hlen], by simp [ly, hlen], (box_iff _ _ _ (by simp [lx, hlen]) (by simp [ly, hlen])).2 hb⟩, l1, Res.ok_bind]
    exact exact_mapM fun a ha => he a (l4 a ha)
  refine ⟨⟨l, ks⟩, ?_, rfl, ?_, fun is hi1 hi2 => ?_⟩
  · unfold readSubset
    rw [prep_ok f e t naxes px _ h hlen ht, Res.ok_bind]
    simp only
    rw [hmk, Res.ok_bind]
    simp only
    rw [hC, Res.ok_bind, hdim]
  · show l.length = _
    rw [l2, s1, prod_reverse]
  · have hkl : ks.length = is.length := hi1.symm
    have e1 := s3 is.reverse (by simp [hi1, r5, hlen]) ((inDims_reverse ks is hkl).2 hi2)
    rw [← offset_eq_fpos ks is hkl] at e1
    have e2 : fpos naxes (moved xs.reverse is.reverse) = offset naxes.reverse (List.zipWith (· + ·) los is) := by
      rw [offset_eq_fpos _ _ (by simp [hi1, r4, r5, hlen]), List.reverse_reverse]
      congr 1
      unfold moved
      rw [zipWith_reverse' _ _ (by rw [lx, hi1, r5])]
      congr 1
      rw [hxs, List.zipWith_map_left]
      simp
    rw [e2] at e1
    have e3 := l3 _ _ e1
    have hlt := s2 _ (List.mem_of_getElem? e1)
    rw [← hl] at hlt
    exact ⟨px[offset naxes.reverse (List.zipWith (· + ·) los is)], by show l[_]? = _; rw [e3, List.getElem?_eq_getElem hlt], List.getElem?_eq_getElem hlt⟩

/-- **C134** an index or a last index out of the image is refused, whatever the other arguments are -/
theorem C134_subset_refused (c : Conv α) (f : File α) (e : ET) (t : CT) (naxes : List Nat) (px : List α) (args : List Arg)
    (h : f.hdus[f.cur]? = some (.image t naxes px)) (hr : ¬ (naxes.length = args.length ∧ convertible e t = true) ∨
      ∃ k a, args[k]? = some a ∧ Refused (naxes.reverse.getD k 0) a) : readSubset c f e args = .abort := by
  by_cases h1 : naxes.length = args.length
  swap
  · unfold readSubset readPrep
    rw [h]
    simp only
    rw [Res.check_neg h1]
    rfl
  by_cases h2 : convertible e t = true
  swap
  · unfold readSubset readPrep
    rw [h]
    simp only
    rw [Res.check_pos h1, Res.ok_bind, Res.check_neg h2]
    rfl
  rcases hr with hr | ⟨k, a, ha, hr⟩
  · exact absurd ⟨h1, h2⟩ hr
  unfold readSubset
  rw [prep_ok f e t naxes px _ h h1 h2, Res.ok_bind]
  simp only
  rw [make_abort naxes args 0 _ (by omega) ⟨k, a, ha, by rw [← h1, List.take_length]; exact refused_range hr⟩]
  rfl

/-- a range beyond the image on some axis -/
theorem escape_rng : ∀ (ds : List Nat) (as : List Arg), ds.length = as.length → (∀ k a, as[k]? = some a → ¬ Refused (ds.getD k 0) a) →
    (∃ k a, as[k]? = some a ∧ Escapes (ds.getD k 0) a) → ∃ xs ys, Rng ds as xs ys ∧ ¬ Box ds xs ys
  | [], [], _, _, ⟨k, a, h, _⟩ => by simp at h
  | d :: ds, b :: as, hl, hn, ⟨k, a, h, he⟩ => by
    have hl' : ds.length = as.length := by simpa using hl
    have hall : ∀ (ds : List Nat) (as : List Arg), ds.length = as.length → (∀ k a, as[k]? = some a → ¬ Refused (ds.getD k 0) a) → ∃ xs ys, Rng ds as xs ys := by
      intro ds
      induction ds with
      | nil => intro as hl _; rw [List.eq_nil_of_length_eq_zero hl.symm]; exact ⟨_, _, .nil⟩
      | cons d ds ih =>
        intro as hl hn
        cases as with
        | nil => simp at hl
        | cons b as =>
          obtain ⟨xs, ys, h⟩ := ih as (by simpa using hl) fun k a hk => by have := hn (k + 1) a (by simpa using hk); simpa using this
          have h0 := hn 0 b rfl
          rw [List.getD_cons_zero] at h0
          rcases arg_cases d b with ⟨lo, k, hs⟩ | hs | hs
          · exact ⟨_, _, .cons (sel_range hs).1 h⟩
          · exact absurd hs h0
          · obtain ⟨x, y, hx, _⟩ := escapes_range hs
            exact ⟨_, _, .cons hx h⟩
    have hn' : ∀ k a, as[k]? = some a → ¬ Refused (ds.getD k 0) a := fun k a hk => by have := hn (k + 1) a (by simpa using hk); simpa using this
    cases k with
    | zero =>
      simp only [List.getElem?_cons_zero, Option.some.injEq] at h
      subst h
      rw [List.getD_cons_zero] at he
      obtain ⟨x, y, hx, hxy⟩ := escapes_range he
      obtain ⟨xs, ys, hr⟩ := hall ds as hl' hn'
      refine ⟨_, _, .cons hx hr, fun hb => ?_⟩
      cases hb
      omega
    | succ k =>
      obtain ⟨xs, ys, hr, hb⟩ := escape_rng ds as hl' hn' ⟨k, a, by simpa using h, by simpa using he⟩
      have h0 := hn 0 b rfl
      rw [List.getD_cons_zero] at h0
      rcases arg_cases d b with ⟨lo, j, hs⟩ | hs | hs
      · exact ⟨_, _, .cons (sel_range hs).1 hr, fun h' => by cases h'; exact hb ‹_›⟩
      · exact absurd hs h0
      · obtain ⟨x, y, hx, _⟩ := escapes_range hs
        exact ⟨_, _, .cons hx hr, fun h' => by cases h'; exact hb ‹_›⟩

/-- **C134 does not hold** for the other ranges: a range that starts after the end of the axis (`3-_` on an axis of 3 pixels), or after its own end, is given to
`cfitsio` without any check -/
theorem C134_subset_refuted (c : Conv α) (f : File α) (e : ET) (t : CT) (naxes : List Nat) (px : List α) (args : List Arg)
    (h : f.hdus[f.cur]? = some (.image t naxes px)) (h1 : naxes.length = args.length) (ht : convertible e t = true)
    (hn : ∀ k a, args[k]? = some a → ¬ Refused (naxes.reverse.getD k 0) a) (he : ∃ k a, args[k]? = some a ∧ Escapes (naxes.reverse.getD k 0) a) :
    readSubset c f e args = .ub := by
  obtain ⟨xs, ys, hr, hb⟩ := escape_rng naxes.reverse args (by simpa using h1) hn he
  obtain ⟨q1, q2, q3⟩ := hr.length
  have hmk : makeIndices naxes 0 args (List.replicate args.length 0, List.replicate args.length 0) = .ok (xs.reverse, ys.reverse) := by
    rw [make_ok naxes args 0 _ _ xs ys (by omega) (by simp [h1]) (by simp [h1]) (by rw [← h1, List.take_length]; exact hr)]
    simp
  have hC : readSubsetC c e naxes px xs.reverse ys.reverse = .ub := by
    unfold readSubsetC
    rw [if_neg]
    rintro ⟨a1, a2, a3⟩
    have := box_reverse ((box_iff _ _ _ a1 a2).1 a3)
    rw [List.reverse_reverse, List.reverse_reverse] at this
    exact hb this
  unfold readSubset
  rw [prep_ok f e t naxes px _ h h1 ht, Res.ok_bind]
  simp only
  rw [hmk, Res.ok_bind]
  simp only
  rw [hC]
  rfl

/-! ### An image of 2 lines of 3 pixels -/

def idConv : Conv Int := ⟨fun _ x => .ok x, fun _ x => .ok x⟩
def img23 : File Int := ⟨[.image .long [3, 2] [10, 11, 12, 20, 21, 22]], 0⟩

example : Sels [2, 3] [.index 1, .right 1] [1, 1] [1, 2] := .cons (.index 1 (by decide)) (.cons (.right 1 (by decide)) .nil)
example : (readSubset idConv img23 .int [.index 1, .right 1]) = .ok ⟨[21, 22], [1, 2]⟩ := by decide +kernel
example : (readSubset idConv img23 .int [.full, .left 1]) = .ok ⟨[10, 11, 20, 21], [2, 2]⟩ := by decide +kernel
example : (readSubset idConv img23 .int [.full, .right 3]) = .ub := by decide +kernel
example : (readSubset idConv img23 .int [.index 2, .right 3]) = .abort := by decide +kernel
example : Escapes 3 (.right 3) := .right 3 (by decide)
example : Refused 2 (.index 2) := .index 2 (by decide)
example : readPixel idConv img23 .int [1, 2] = .ok 22 := by decide +kernel
example : readPixel idConv img23 .int [2, 1] = .abort := by decide +kernel
example : InDims [2, 3] [1, 2] := by simp [InDims]

end Verif.FitsImage
