import Verif.Core.Vec
import Verif.Core.AccessProps
import Mathlib.Data.List.Nodup
import Mathlib.Tactic.IntervalCases
/-!
# Property C09: `append` and `prepend`
-/
namespace Verif.Core.Vec
open Verif Verif.Index
variable {α : Type}

/-! ## assignment through a view with distinct positions -/

theorem assignAt_spec (as : List Nat) (xs data : List α) (hl : as.length = xs.length)
    (hnd : as.Nodup) (hlt : ∀ a ∈ as, a < data.length) :
    ∃ d', assignAt data as xs = .ok d' ∧ d'.length = data.length ∧
      (∀ (k a : Nat), as[k]? = some a → d'[a]? = xs[k]?) ∧
      ∀ a, a ∉ as → d'[a]? = data[a]? := by
  induction as generalizing xs data with
  | nil =>
    cases xs with
    | nil => exact ⟨data, rfl, rfl, by simp, by simp⟩
    | cons => simp at hl
  | cons a as ih =>
    cases xs with
    | nil => simp at hl
    | cons x xs =>
      rw [List.nodup_cons] at hnd
      have ha := hlt a (by simp)
      obtain ⟨d', h1, h2, h3, h4⟩ := ih xs (data.set a x) (by simpa using hl) hnd.2
        (fun b hb => by rw [List.length_set]; exact hlt b (by simp [hb]))
      refine ⟨d', by simp only [assignAt, if_pos ha, h1], by simpa using h2, ?_, ?_⟩
      · intro k b hk
        cases k with
        | zero =>
          simp only [List.getElem?_cons_zero, Option.some.injEq] at hk ⊢
          subst hk
          rw [h4 a hnd.1, List.getElem?_set_self ha]
        | succ k => simp only [List.getElem?_cons_succ] at hk ⊢; exact h3 k b hk
      · intro b hb
        rw [List.mem_cons, not_or] at hb
        rw [h4 b hb.2, List.getElem?_set_ne (fun h => hb.1 h.symm)]

/-! ## the slice selectors -/

theorem allCoords_full (A : List Nat) :
    allCoords A (List.replicate A.length .full) = some (A.map List.range) := by
  induction A with
  | nil => rfl
  | cons d A ih => simp [List.replicate_succ, allCoords, Sel.coords, ih]

theorem allCoords_append (A B : List Nat) (sa sb : List Sel) (ca cb : List (List Nat))
    (ha : allCoords A sa = some ca) (hb : allCoords B sb = some cb) :
    allCoords (A ++ B) (sa ++ sb) = some (ca ++ cb) := by
  induction A generalizing sa ca with
  | nil =>
    cases sa with
    | nil => simp only [allCoords, Option.some.injEq] at ha; subst ha; simpa using hb
    | cons => simp [allCoords] at ha
  | cons d A ih =>
    cases sa with
    | nil => simp [allCoords] at ha
    | cons s sa =>
      simp only [allCoords, Option.bind_eq_bind, Option.bind_eq_some_iff, Option.pure_def,
        Option.some.injEq] at ha
      obtain ⟨c, hc, cs, hcs, rfl⟩ := ha
      simp [allCoords, hc, ih sa cs hcs]

theorem allCoords_slice (A B : List Nat) (d : Nat) (ids : List Nat) (h : ∀ i ∈ ids, i < d) :
    allCoords (A ++ d :: B) (sliceSels (A ++ d :: B).length A.length ids) =
      some (A.map List.range ++ ids :: B.map List.range) := by
  have e : sliceSels (A ++ d :: B).length A.length ids =
      List.replicate A.length .full ++ (.ids ids :: List.replicate B.length .full) := by
    unfold sliceSels
    rw [List.append_assoc, List.length_append, List.length_cons,
      show A.length + (B.length + 1) - A.length - 1 = B.length by omega]
    rfl
  rw [e]
  apply allCoords_append _ _ _ _ _ _ (allCoords_full A)
  have : (Sel.ids ids).coords d = some ids := by simp only [Sel.coords]; rw [if_pos h]
  simp [allCoords, this, allCoords_full]

theorem keptLengths_slice (A B : List Nat) (m d : Nat) (ids : List Nat) (hm : m = A.length) :
    keptLengths (sliceSels (A ++ d :: B).length m ids)
      (A.map List.range ++ ids :: B.map List.range) = A ++ ids.length :: B := by
  have e : sliceSels (A ++ d :: B).length m ids =
      List.replicate A.length .full ++ (.ids ids :: List.replicate B.length .full) := by
    unfold sliceSels
    rw [List.append_assoc, List.length_append, List.length_cons, hm,
      show A.length + (B.length + 1) - A.length - 1 = B.length by omega]
    rfl
  rw [e]
  have hB : keptLengths (List.replicate B.length .full) (B.map List.range) = B := by
    clear e
    induction B with
    | nil => rfl
    | cons b B ih => simp [List.replicate_succ, keptLengths, Sel.keeps, ih]
  clear e hm
  induction A with
  | nil => simp [keptLengths, Sel.keeps, hB]
  | cons a A ih => simp [List.replicate_succ, keptLengths, Sel.keeps, ih]

theorem subst_full (B b : List Nat) (hb : InRange B b) :
    subst (List.replicate B.length .full) (B.map List.range) b = b := by
  induction hb with
  | nil => rfl
  | cons h _ ih =>
    simp only [List.length_cons, List.replicate_succ, List.map_cons, subst, Sel.keeps, if_true, ih]
    rw [List.getD_eq_getElem?_getD, List.getElem?_range h]
    rfl

theorem subst_slice (A B a b : List Nat) (d k : Nat) (ids : List Nat) (ha : InRange A a)
    (hb : InRange B b) :
    subst (sliceSels (A ++ d :: B).length A.length ids)
      (A.map List.range ++ ids :: B.map List.range) (a ++ k :: b) = a ++ ids.getD k 0 :: b := by
  have e : sliceSels (A ++ d :: B).length A.length ids =
      List.replicate A.length .full ++ (.ids ids :: List.replicate B.length .full) := by
    unfold sliceSels
    rw [List.append_assoc, List.length_append, List.length_cons,
      show A.length + (B.length + 1) - A.length - 1 = B.length by omega]
    rfl
  rw [e]
  clear e
  induction ha with
  | nil => simp only [List.length_nil, List.replicate_zero, List.map_nil, List.nil_append, subst,
      Sel.keeps, if_true, subst_full B b hb]
  | cons h _ ih =>
    simp only [List.length_cons, List.replicate_succ, List.map_cons, List.cons_append, subst,
      Sel.keeps, if_true, ih]
    rw [List.getD_eq_getElem?_getD, List.getElem?_range h]
    rfl

theorem inRange_append_iff (A B ks : List Nat) (d : Nat) :
    InRange (A ++ d :: B) ks ↔ ∃ a k b, ks = a ++ k :: b ∧ InRange A a ∧ k < d ∧ InRange B b := by
  constructor
  · intro h
    induction A generalizing ks with
    | nil =>
      cases h with
      | cons h1 h2 => exact ⟨[], _, _, rfl, .nil, h1, h2⟩
    | cons x A ih =>
      cases h with
      | cons h1 h2 =>
        obtain ⟨a, k, b, rfl, ha, hk, hb⟩ := ih _ h2
        exact ⟨_ :: a, k, b, rfl, .cons h1 ha, hk, hb⟩
  · rintro ⟨a, k, b, rfl, ha, hk, hb⟩
    exact List.rel_append ha (.cons hk hb)

/-- What the access of a run of slices gives: positions of those slices, without repetition. -/
theorem access_slice (A B : List Nat) (d lo m : Nat) (h : lo + m ≤ d)
    (hd : ∀ x ∈ A ++ d :: B, x < W) (hp : (A ++ d :: B).prod < maxSize) :
    ∃ as, access (A ++ d :: B)
        (sliceSels (A ++ d :: B).length A.length ((List.range m).map (lo + ·))) =
        .ok (A ++ m :: B, as) ∧
      as.length = (A ++ m :: B).prod ∧ as.Nodup ∧ (∀ x ∈ as, x < (A ++ d :: B).prod) ∧
      (∀ a k b, InRange A a → k < m → InRange B b →
        as[rowMajor (A ++ m :: B) (a ++ k :: b)]? =
          some (rowMajor (A ++ d :: B) (a ++ (lo + k) :: b))) ∧
      ∀ a k b, InRange A a → k < d → InRange B b → (k < lo ∨ lo + m ≤ k) →
        rowMajor (A ++ d :: B) (a ++ k :: b) ∉ as := by
  have hids : ∀ i ∈ (List.range m).map (lo + ·), i < d := by
    intro i hi; simp only [List.mem_map, List.mem_range] at hi; obtain ⟨j, hj, rfl⟩ := hi; omega
  have hc := allCoords_slice A B d _ hids
  have hk := keptLengths_slice A B A.length d ((List.range m).map (lo + ·)) rfl
  rw [List.length_map, List.length_range] at hk
  have hprod : (((A.map List.range ++ (List.range m).map (lo + ·) :: B.map List.range)).map
      List.length).prod ≤ (A ++ d :: B).prod := by
    simp only [List.map_append, List.map_cons, List.map_map, List.length_map, List.length_range,
      List.prod_append, List.prod_cons]
    have e : ∀ l : List Nat, l.map (List.length ∘ List.range) = l := by
      intro l; induction l with
      | nil => rfl
      | cons x l ih => simp [ih]
    rw [e, e]
    exact Nat.mul_le_mul_left _ (Nat.mul_le_mul_right _ (by omega))
  obtain ⟨as, h1, h2, h3, h4⟩ := C06_correct _ _ _ hc hd (by omega)
  rw [hk] at h1 h2 h4
  have hat : ∀ a k b, InRange A a → k < m → InRange B b →
        as[rowMajor (A ++ m :: B) (a ++ k :: b)]? =
          some (rowMajor (A ++ d :: B) (a ++ (lo + k) :: b)) := by
    intro a k b ha hk hb
    have := (h4 (a ++ k :: b) ((inRange_append_iff A B _ m).2 ⟨a, k, b, rfl, ha, hk, hb⟩)).2
    rw [this, subst_slice A B a b d k _ ha hb]
    congr 3
    simp [hk]
  refine ⟨as, h1, h2, ?_, h3, hat, ?_⟩
  · rw [List.nodup_iff_injective_get]
    rintro ⟨p, hp'⟩ ⟨q, hq'⟩ heq
    simp only [Fin.mk.injEq, List.get_eq_getElem] at heq ⊢
    obtain ⟨ks, hks, rfl⟩ := rowMajor_surj (A ++ m :: B) p (by omega)
    obtain ⟨ls, hls, rfl⟩ := rowMajor_surj (A ++ m :: B) q (by omega)
    obtain ⟨a, k, b, rfl, ha, hka, hb⟩ := (inRange_append_iff _ _ _ _).1 hks
    obtain ⟨a', k', b', rfl, ha', hka', hb'⟩ := (inRange_append_iff _ _ _ _).1 hls
    have e1 := hat a k b ha hka hb
    have e2 := hat a' k' b' ha' hka' hb'
    rw [List.getElem?_eq_getElem hp', Option.some.injEq] at e1
    rw [List.getElem?_eq_getElem hq', Option.some.injEq] at e2
    rw [e1, e2] at heq
    have := rowMajor_inj _ _ _ ((inRange_append_iff A B _ d).2 ⟨a, lo + k, b, rfl, ha, by omega, hb⟩)
      ((inRange_append_iff A B _ d).2 ⟨a', lo + k', b', rfl, ha', by omega, hb'⟩) heq
    have hl : a.length = a'.length := by rw [ha.length_eq, ha'.length_eq]
    have := List.append_inj this hl
    simp only [List.cons.injEq] at this
    obtain ⟨rfl, h5, rfl⟩ := this
    have : k = k' := by omega
    rw [this]
  · intro a k b ha hk hb hout hmem
    obtain ⟨p, hp', hpe⟩ := List.getElem_of_mem hmem
    obtain ⟨ls, hls, rfl⟩ := rowMajor_surj (A ++ m :: B) p (by omega)
    obtain ⟨a', k', b', rfl, ha', hka', hb'⟩ := (inRange_append_iff _ _ _ _).1 hls
    have e2 := hat a' k' b' ha' hka' hb'
    rw [List.getElem?_eq_getElem hp', Option.some.injEq] at e2
    rw [hpe] at e2
    have := rowMajor_inj _ _ _ ((inRange_append_iff A B _ d).2 ⟨a, k, b, rfl, ha, hk, hb⟩)
      ((inRange_append_iff A B _ d).2 ⟨a', lo + k', b', rfl, ha', by omega, hb'⟩) e2
    have hl : a.length = a'.length := by rw [ha.length_eq, ha'.length_eq]
    have := List.append_inj this hl
    simp only [List.cons.injEq] at this
    omega

theorem foldl_mod (l : List Nat) (s : Nat) :
    l.foldl (fun s d => s * d % W) s % W = s * l.prod % W := by
  induction l generalizing s with
  | nil => simp
  | cons d l ih =>
    rw [List.foldl_cons, ih, List.prod_cons, Nat.mod_mul_mod, Nat.mul_assoc]

theorem foldl_lt (l : List Nat) (s : Nat) (hs : s < W) :
    l.foldl (fun s d => s * d % W) s < W := by
  induction l generalizing s with
  | nil => simpa using hs
  | cons d l ih => exact ih _ (Nat.mod_lt _ (by decide))

/-- `resize()` computes the product modulo `2^64`. -/
theorem foldl_prod (l : List Nat) : l.foldl (fun s d => s * d % W) 1 = l.prod % W := by
  have h1 := foldl_mod l 1
  rw [Nat.one_mul, Nat.mod_eq_of_lt (foldl_lt l 1 (by decide))] at h1
  exact h1

/-- The common loop of `append` and `prepend`: after writing two adjacent runs of slices that cover
the dimension, the data is the concatenation of both. -/
theorem two_runs [Inhabited α] (A B : List Nat) (n1 n2 : Nat) (d0 x1 x2 : List α)
    (hd : ∀ x ∈ A ++ (n1 + n2) :: B, x < W) (hp : (A ++ (n1 + n2) :: B).prod < maxSize)
    (h0 : d0.length = (A ++ (n1 + n2) :: B).prod)
    (h1 : x1.length = (A ++ n1 :: B).prod) (h2 : x2.length = (A ++ n2 :: B).prod) :
    ∃ as1 as2 d1 d2,
      access (A ++ (n1 + n2) :: B)
        (sliceSels (A ++ (n1 + n2) :: B).length A.length (List.range n1)) =
        .ok (A ++ n1 :: B, as1) ∧
      access (A ++ (n1 + n2) :: B)
        (sliceSels (A ++ (n1 + n2) :: B).length A.length ((List.range n2).map (n1 + ·))) =
        .ok (A ++ n2 :: B, as2) ∧
      assignAt d0 as1 x1 = .ok d1 ∧ assignAt d1 as2 x2 = .ok d2 ∧
      d2.length = (A ++ (n1 + n2) :: B).prod ∧
      ∀ a k b, InRange A a → k < n1 + n2 → InRange B b →
        d2[rowMajor (A ++ (n1 + n2) :: B) (a ++ k :: b)]? =
          if k < n1 then x1[rowMajor (A ++ n1 :: B) (a ++ k :: b)]?
          else x2[rowMajor (A ++ n2 :: B) (a ++ (k - n1) :: b)]? := by
  obtain ⟨as1, a1, a2, a3, a4, a5, a6⟩ := access_slice A B (n1 + n2) 0 n1 (by omega) hd hp
  obtain ⟨as2, b1, b2, b3, b4, b5, b6⟩ := access_slice A B (n1 + n2) n1 n2 (by omega) hd hp
  have e0 : (List.range n1).map (0 + ·) = List.range n1 := by
    have : (fun x => 0 + x : Nat → Nat) = id := by funext x; simp
    rw [this, List.map_id]
  rw [e0] at a1
  obtain ⟨d1, c1, c2, c3, c4⟩ := assignAt_spec as1 x1 d0 (by omega) a3 (by rw [h0]; exact a4)
  obtain ⟨d2, f1, f2, f3, f4⟩ := assignAt_spec as2 x2 d1 (by omega) b3 (by rw [c2, h0]; exact b4)
  refine ⟨as1, as2, d1, d2, a1, b1, c1, f1, by omega, ?_⟩
  intro a k b ha hk hb
  split
  · rename_i hlt
    rw [f4 _ (b6 a k b ha hk hb (.inl hlt))]
    have := c3 _ _ (a5 a k b ha hlt hb)
    rwa [Nat.zero_add] at this
  · have := f3 _ _ (b5 a (k - n1) b ha (by omega) hb)
    rwa [show n1 + (k - n1) = k by omega] at this

theorem resizeTo [Inhabited α] (data : List α) (A B : List Nat) (n n1 n2 : Nat) (hn : n = A.length)
    (hd : ∀ x ∈ A ++ (n1 + n2) :: B, x < W) (hp : (A ++ (n1 + n2) :: B).prod < maxSize) :
    ∃ d0, resize0 ⟨data, (A ++ n1 :: B).set n ((n1 + n2) % W)⟩ = .ok ⟨d0, A ++ (n1 + n2) :: B⟩ ∧
      d0.length = (A ++ (n1 + n2) :: B).prod := by
  have e : (A ++ n1 :: B).set n ((n1 + n2) % W) = A ++ (n1 + n2) :: B := by
    rw [Nat.mod_eq_of_lt (hd _ (by simp)), hn]
    simp
  have hpW : (A ++ (n1 + n2) :: B).prod < 2 ^ 63 := lt_trans hp (by decide)
  refine ⟨data.take (A ++ (n1 + n2) :: B).prod ++
    List.replicate ((A ++ (n1 + n2) :: B).prod - data.length) default, ?_, ?_⟩
  · simp only [resize0, resizeData, e, foldl_prod]
    rw [Nat.mod_eq_of_lt (lt_trans hpW (by decide)), if_pos hpW]
    rfl
  · simp; omega

/-- Spec of C09: the vector whose slices along the dimension at position `A.length` are those of
`v` followed by those of `w`. -/
def IsConcat (A B : List Nat) (n1 n2 : Nat) (v w r : Vec α) : Prop :=
  r.dims = A ++ (n1 + n2) :: B ∧ r.data.length = r.dims.prod ∧
  ∀ a k b, InRange A a → k < n1 + n2 → InRange B b →
    r.data[rowMajor r.dims (a ++ k :: b)]? =
      if k < n1 then v.data[rowMajor v.dims (a ++ k :: b)]?
      else w.data[rowMajor w.dims (a ++ (k - n1) :: b)]?

theorem prod_parts (A B : List Nat) (n : Nat) : (A ++ n :: B).prod = n * (A.prod * B.prod) := by
  rw [List.prod_append, List.prod_cons]; ring

/-- C09: appending along dimension `A.length`, for vectors agreeing on the other dimensions. -/
theorem C09_append [Inhabited α] (A B : List Nat) (n1 n2 : Nat) (v w : Vec α)
    (hv : v.dims = A ++ n1 :: B) (hw : w.dims = A ++ n2 :: B)
    (wfv : v.data.length = v.dims.prod) (wfw : w.data.length = w.dims.prod)
    (hv0 : v.data ≠ []) (hw0 : w.data ≠ [])
    (hd : ∀ x ∈ A ++ (n1 + n2) :: B, x < W) (hp : (A ++ (n1 + n2) :: B).prod < maxSize) :
    ∃ r, append A.length v w = .ok r ∧ IsConcat A B n1 n2 v w r := by
  obtain ⟨d0, h0, h0l⟩ := resizeTo v.data A B A.length n1 n2 rfl hd hp
  rw [hv] at wfv
  rw [hw] at wfw
  obtain ⟨as1, as2, d1, d2, e1, e2, e3, e4, e5, e6⟩ :=
    two_runs A B n1 n2 d0 v.data w.data hd hp h0l wfv wfw
  have g1 : v.dims.getD A.length 0 = n1 := by rw [hv]; simp
  have g2 : w.dims.getD A.length 0 = n2 := by rw [hw]; simp
  have p1 := prod_parts A B n1
  have p2 := prod_parts A B n2
  have z1 : n1 ≠ 0 := by
    intro h; apply hv0; apply List.length_eq_zero_iff.1; rw [wfv, p1, h]; simp
  have z2 : n2 ≠ 0 := by
    intro h; apply hw0; apply List.length_eq_zero_iff.1; rw [wfw, p2, h]; simp
  refine ⟨⟨d2, A ++ (n1 + n2) :: B⟩, ?_, rfl, e5, ?_⟩
  · simp only [append, if_neg hv0, if_neg hw0, g1, g2]
    rw [if_neg (by omega)]
    have hc : v.data.length / n1 = w.data.length / n2 := by
      rw [wfv, wfw, p1, p2, Nat.mul_div_cancel_left _ (by omega), Nat.mul_div_cancel_left _ (by omega)]
    rw [Res.check_pos hc, Res.ok_bind, hv, h0, Res.ok_bind]
    simp only [e1, e2, Res.ok_bind, e3, e4]
  · intro a k b ha hk hb
    rw [hv, hw]
    exact e6 a k b ha hk hb

/-- C09: prepending. -/
theorem C09_prepend [Inhabited α] (A B : List Nat) (n1 n2 : Nat) (v w : Vec α)
    (hv : v.dims = A ++ n1 :: B) (hw : w.dims = A ++ n2 :: B)
    (wfv : v.data.length = v.dims.prod) (wfw : w.data.length = w.dims.prod)
    (hv0 : v.data ≠ []) (hw0 : w.data ≠ [])
    (hd : ∀ x ∈ A ++ (n1 + n2) :: B, x < W) (hp : (A ++ (n1 + n2) :: B).prod < maxSize) :
    ∃ r, prepend A.length v w = .ok r ∧ IsConcat A B n2 n1 w v r := by
  obtain ⟨d0, h0, h0l⟩ := resizeTo v.data A B A.length n1 n2 rfl hd hp
  rw [Nat.add_comm n1 n2] at hd hp h0l
  rw [hv] at wfv
  rw [hw] at wfw
  obtain ⟨as1, as2, d1, d2, e1, e2, e3, e4, e5, e6⟩ :=
    two_runs A B n2 n1 d0 w.data v.data hd hp h0l wfw wfv
  have g1 : v.dims.getD A.length 0 = n1 := by rw [hv]; simp
  have g2 : w.dims.getD A.length 0 = n2 := by rw [hw]; simp
  have p1 := prod_parts A B n1
  have p2 := prod_parts A B n2
  have z1 : n1 ≠ 0 := by
    intro h; apply hv0; apply List.length_eq_zero_iff.1; rw [wfv, p1, h]; simp
  have z2 : n2 ≠ 0 := by
    intro h; apply hw0; apply List.length_eq_zero_iff.1; rw [wfw, p2, h]; simp
  refine ⟨⟨d2, A ++ (n2 + n1) :: B⟩, ?_, rfl, e5, ?_⟩
  · simp only [prepend, if_neg hv0, if_neg hw0, g1, g2]
    rw [if_neg (by omega)]
    have hc : v.data.length / n1 = w.data.length / n2 := by
      rw [wfv, wfw, p1, p2, Nat.mul_div_cancel_left _ (by omega), Nat.mul_div_cancel_left _ (by omega)]
    rw [Res.check_pos hc, Res.ok_bind, hv, h0, Res.ok_bind, Nat.add_comm n1 n2]
    simp only [e1, e2, Res.ok_bind, e3, e4]
  · intro a k b ha hk hb
    rw [hv, hw]
    exact e6 a k b ha hk hb

/-- hypotheses met: two 2x·x2 blocks appended along the middle dimension -/
example : ∃ r, append 1 (⟨[1, 2, 3, 4], [2, 1, 2]⟩ : Vec Nat)
    ⟨[5, 6, 7, 8, 9, 10, 11, 12], [2, 2, 2]⟩ = .ok r ∧
    IsConcat [2] [2] 1 2 ⟨[1, 2, 3, 4], [2, 1, 2]⟩ ⟨[5, 6, 7, 8, 9, 10, 11, 12], [2, 2, 2]⟩ r :=
  C09_append [2] [2] 1 2 _ _ rfl rfl rfl rfl (by simp) (by simp) (by decide) (by decide)

example : IsConcat [2] [2] 1 2 (⟨[1, 2, 3, 4], [2, 1, 2]⟩ : Vec Nat)
    ⟨[5, 6, 7, 8, 9, 10, 11, 12], [2, 2, 2]⟩ ⟨[1, 2, 5, 6, 7, 8, 3, 4, 9, 10, 11, 12], [2, 3, 2]⟩ := by
  refine ⟨rfl, rfl, ?_⟩
  intro a k b ha hk hb
  cases ha with
  | cons h1 h2 =>
    cases h2
    cases hb with
    | cons h3 h4 =>
      cases h4
      rename_i a b
      interval_cases k <;> interval_cases a <;> interval_cases b <;> decide

/-- C09: an empty target takes the content and shape of the other, and an empty addition changes
nothing. -/
theorem C09_empty [Inhabited α] (n : Nat) (v w : Vec α) :
    (v.data = [] → append n v w = .ok w ∧ prepend n v w = .ok w) ∧
    (v.data ≠ [] → w.data = [] → append n v w = .ok v ∧ prepend n v w = .ok v) := by
  constructor
  · intro h; simp [append, prepend, h]
  · intro h1 h2; simp [append, prepend, h1, h2]

/-- C09: when the remaining dimensions hold different numbers of elements the call aborts. -/
theorem C09_mismatch_aborts_partial [Inhabited α] (A B A' B' : List Nat) (n1 n2 : Nat) (v w : Vec α)
    (hv : v.dims = A ++ n1 :: B) (hw : w.dims = A' ++ n2 :: B') (hA : A'.length = A.length)
    (wfv : v.data.length = v.dims.prod) (wfw : w.data.length = w.dims.prod)
    (hv0 : v.data ≠ []) (hw0 : w.data ≠ [])
    (hne : A.prod * B.prod ≠ A'.prod * B'.prod) :
    append A.length v w = .abort ∧ prepend A.length v w = .abort := by
  rw [hv] at wfv
  rw [hw] at wfw
  have g1 : v.dims.getD A.length 0 = n1 := by rw [hv]; simp
  have g2 : w.dims.getD A.length 0 = n2 := by rw [hw, ← hA]; simp
  have p1 := prod_parts A B n1
  have p2 := prod_parts A' B' n2
  have z1 : n1 ≠ 0 := by
    intro h; apply hv0; apply List.length_eq_zero_iff.1; rw [wfv, p1, h]; simp
  have z2 : n2 ≠ 0 := by
    intro h; apply hw0; apply List.length_eq_zero_iff.1; rw [wfw, p2, h]; simp
  have hc : ¬ v.data.length / n1 = w.data.length / n2 := by
    rw [wfv, wfw, p1, p2, Nat.mul_div_cancel_left _ (by omega), Nat.mul_div_cancel_left _ (by omega)]
    exact hne
  constructor
  · simp only [append, if_neg hv0, if_neg hw0, g1, g2]
    rw [if_neg (by omega), Res.check_neg hc]; rfl
  · simp only [prepend, if_neg hv0, if_neg hw0, g1, g2]
    rw [if_neg (by omega), Res.check_neg hc]; rfl

example : append 0 (⟨[1, 2], [1, 2]⟩ : Vec Nat) ⟨[1, 2, 3], [1, 3]⟩ = .abort :=
  (C09_mismatch_aborts_partial [] [2] [] [3] 1 1 _ _ rfl rfl rfl rfl rfl (by simp) (by simp)
    (by decide)).1

theorem mi3 : makeIndices [2, 2, 3] (sliceSels 3 0 [0]) 0 = .ok [0, 1, 2, 3, 4, 5] ∧
    makeIndices [2, 2, 3] (sliceSels 3 0 [1]) 0 = .ok [6, 7, 8, 9, 10, 11] := by
  have h1 := makeIndices_ok [2, 2, 3] (sliceSels 3 0 [0]) [[0], [0, 1], [0, 1, 2]] 0
    (by decide)
  have h2 := makeIndices_ok [2, 2, 3] (sliceSels 3 0 [1])
    [[1], [0, 1], [0, 1, 2]] 0 (by decide)
  rw [h1, h2]; decide

/-- Finding: the compatibility check only compares the number of elements per slice. Appending a
1x3x2 block to a 1x2x3 block is accepted and scrambles the rows. -/
theorem C09_mismatch_refuted :
    append 0 (⟨[1, 2, 3, 4, 5, 6], [1, 2, 3]⟩ : Vec Nat) ⟨[7, 8, 9, 10, 11, 12], [1, 3, 2]⟩ =
      .ok ⟨[1, 2, 3, 4, 5, 6, 7, 8, 9, 10, 11, 12], [2, 2, 3]⟩ := by
  have e : resize0 (⟨[1, 2, 3, 4, 5, 6], [2, 2, 3]⟩ : Vec Nat) =
      .ok ⟨[1, 2, 3, 4, 5, 6, 0, 0, 0, 0, 0, 0], [2, 2, 3]⟩ := by decide
  have e1 : access [2, 2, 3] (sliceSels 3 0 [0]) = .ok ([1, 2, 3], [0, 1, 2, 3, 4, 5]) := by
    have hv : viewDims [2, 2, 3] (sliceSels 3 0 [0]) = [1, 2, 3] := by decide
    simp only [access, hv, mi3.1]; decide
  have e2 : access [2, 2, 3] (sliceSels 3 0 [1]) =
      .ok ([1, 2, 3], [6, 7, 8, 9, 10, 11]) := by
    have hv : viewDims [2, 2, 3] (sliceSels 3 0 [1]) = [1, 2, 3] := by decide
    simp only [access, hv, mi3.2]; decide
  simp only [append]
  simp [e, e1, e2, W, Res.check, assignAt]

/-- C09, one dimension: plain concatenation. -/
theorem C09_flat (v w : Vec α) (n1 n2 : Nat) (hv : v.dims = [n1]) (hw : w.dims = [n2])
    (hn : n1 + n2 < W) :
    append1 v w = ⟨v.data ++ w.data, [n1 + n2]⟩ ∧ prepend1 v w = ⟨w.data ++ v.data, [n1 + n2]⟩ := by
  simp [append1, prepend1, hv, hw, Nat.mod_eq_of_lt hn]

example : append1 (⟨[1, 2], [2]⟩ : Vec Nat) ⟨[3], [1]⟩ = ⟨[1, 2, 3], [3]⟩ :=
  (C09_flat _ _ 2 1 rfl rfl (by decide)).1

end Verif.Core.Vec
