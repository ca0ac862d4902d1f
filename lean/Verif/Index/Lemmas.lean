import Verif.Index.Model
import Mathlib.Data.List.Forall2
import Mathlib.Tactic.Ring
import Mathlib.Tactic.Linarith

namespace Verif.Index
open Verif

theorem wrapLoop_eq (size : Nat) (hs : 0 < size) (i : Int) :
    wrapLoop size hs i = if i < 0 then i % size else i := by
  fun_induction wrapLoop size hs i with
  | case1 i h ih =>
    rw [ih]
    simp only [h, if_true]
    split
    · simp
    · rename_i h2
      have h3 : (i + (size : Int)) % (size : Int) = i + size := Int.emod_eq_of_lt (by omega) (by omega)
      rw [← h3]; simp
  | case2 i h => simp [h]

theorem toIdxSigned_eq (size : Nat) (i : Int) :
    toIdxSigned size i =
      if size = 0 then .abort
      else if i < 0 then .ok (i % (size : Int)).toNat
      else if i < size then .ok i.toNat else .abort := by
  unfold toIdxSigned
  by_cases hs : 0 < size
  · have h0 : size ≠ 0 := by omega
    simp only [hs, dite_true, h0, if_false, wrapLoop_eq]
    have hp : (0 : Int) < size := by omega
    have := Int.emod_nonneg i (b := (size : Int)) (by omega)
    have := Int.emod_lt_of_pos i hp
    split
    · rw [if_pos (by omega)]
    · split <;> split <;> first | rfl | omega
  · have h0 : size = 0 := by omega
    simp [h0]

theorem toIdxSigned_lt {size : Nat} {i : Int} {k : Nat} (h : toIdxSigned size i = .ok k) :
    k < size := by
  rw [toIdxSigned_eq] at h
  split at h
  · simp at h
  · have := Int.emod_nonneg i (b := (size : Int)) (by omega)
    have := Int.emod_lt_of_pos i (b := (size : Int)) (by omega)
    split at h
    · simp at h; omega
    · split at h
      · simp at h; omega
      · simp at h

theorem toIdxSigned_nat {size k : Nat} (h : k < size) :
    toIdxSigned size (k : Int) = .ok k := by
  rw [toIdxSigned_eq, if_neg (by omega), if_neg (by omega), if_pos (by omega)]; simp

theorem toIdxSigned_safe (size : Nat) (i : Int) : (toIdxSigned size i).Safe := by
  rw [toIdxSigned_eq]; split <;> [trivial; (split <;> [trivial; (split <;> trivial)])]

theorem pitch_eq (dims : List Nat) (i : Nat) : pitch dims i = (dims.drop (i + 1)).prod := by
  unfold pitch; rw [List.prod_eq_foldl]

/-- One coordinate per dimension, each in range. -/
def InRange (dims ids : List Nat) : Prop := List.Forall₂ (· < ·) ids dims

/-- Horner form of the row-major position (proof device). -/
def rowMajor : List Nat → List Nat → Nat
  | _ :: ds, i :: is => i * ds.prod + rowMajor ds is
  | _, _ => 0

theorem rowMajor_lt (dims ids : List Nat) (h : InRange dims ids) : rowMajor dims ids < dims.prod := by
  induction h with
  | nil => simp [rowMajor]
  | @cons i d is ds hid _ ih =>
    simp only [rowMajor, List.prod_cons]
    calc i * ds.prod + rowMajor ds is < i * ds.prod + ds.prod := by omega
      _ = (i + 1) * ds.prod := by ring
      _ ≤ d * ds.prod := Nat.mul_le_mul_right _ hid

theorem flatIdLoop_eq (pre dims ids : List Nat) (ret : Nat) (h : InRange dims ids) :
    flatIdLoop (pre ++ dims) pre.length ret (ids.map Int.ofNat) =
      .ok (ret + rowMajor dims ids) := by
  induction h generalizing pre ret with
  | nil => simp [flatIdLoop, rowMajor]
  | @cons i d is ds hid _ ih =>
    simp only [List.map_cons, flatIdLoop]
    rw [List.getElem?_append_right (Nat.le_refl _)]
    simp only [Nat.sub_self, List.getElem?_cons_zero]
    have := toIdxSigned_nat hid
    simp only [Int.ofNat_eq_natCast] at this ih ⊢
    rw [this]
    simp only [Res.ok_bind, pitch_eq]
    have e1 : (pre ++ d :: ds).drop (pre.length + 1) = ds := by
      rw [List.drop_append]; simp
    rw [e1]
    have e2 : pre ++ d :: ds = (pre ++ [d]) ++ ds := by simp
    have e3 : pre.length + 1 = (pre ++ [d]).length := by simp
    rw [e2, e3, ih]
    simp only [rowMajor]
    congr 1; ring

theorem flatId_eq (dims ids : List Nat) (h : InRange dims ids) :
    flatId dims (ids.map Int.ofNat) = .ok (rowMajor dims ids) := by
  have := flatIdLoop_eq [] dims ids 0 h
  simpa [flatId] using this

theorem flatIdLoop_signed (pre dims : List Nat) (is : List Int) (ret : Nat) :
    (flatIdLoop (pre ++ dims) pre.length ret is).Safe ∧
    ∀ k, flatIdLoop (pre ++ dims) pre.length ret is = .ok k →
      ∃ ids, InRange dims ids ∧ k = ret + rowMajor dims ids ∧
      List.Forall₂ (fun (p : Int × Nat) (i : Nat) => (p.2 : Int) ∣ p.1 - i) (is.zip dims) ids := by
  induction is generalizing pre dims ret with
  | nil =>
    simp only [flatIdLoop]
    split
    · rename_i h
      have : dims = [] := by
        simp at h; exact h
      subst this
      exact ⟨trivial, fun k hk => ⟨[], .nil, by cases hk; simp [rowMajor], .nil⟩⟩
    · exact ⟨trivial, fun k hk => by simp at hk⟩
  | cons i is ih =>
    simp only [flatIdLoop]
    rw [List.getElem?_append_right (Nat.le_refl _)]
    cases dims with
    | nil => exact ⟨trivial, fun k hk => by simp at hk⟩
    | cons d ds =>
      simp only [Nat.sub_self, List.getElem?_cons_zero]
      have e1 : (pre ++ d :: ds).drop (pre.length + 1) = ds := by
        rw [List.drop_append]; simp
      have e2 : pre ++ d :: ds = (pre ++ [d]) ++ ds := by simp
      have e3 : pre.length + 1 = (pre ++ [d]).length := by simp
      simp only [pitch_eq, e1]
      cases hx : toIdxSigned d i with
      | ok j =>
        simp only [Res.ok_bind]
        rw [e2, e3]
        obtain ⟨s, hs⟩ := ih (pre ++ [d]) ds (ret + ds.prod * j)
        refine ⟨s, fun k hk => ?_⟩
        obtain ⟨ids, h1, h2, h3⟩ := hs k hk
        refine ⟨j :: ids, .cons (toIdxSigned_lt hx) h1, ?_, .cons ?_ h3⟩
        · rw [h2]; simp only [rowMajor]; ring
        · rw [toIdxSigned_eq] at hx
          split at hx
          · simp at hx
          · split at hx
            · simp only [Res.ok.injEq] at hx; subst hx
              rw [Int.toNat_of_nonneg (Int.emod_nonneg i (by omega))]
              exact Int.dvd_self_sub_emod
            · split at hx
              · simp only [Res.ok.injEq] at hx; subst hx
                rw [Int.toNat_of_nonneg (by omega)]; simp
              · simp at hx
      | abort => exact ⟨trivial, fun k hk => by simp at hk⟩
      | ub => have := toIdxSigned_safe d i; simp [hx] at this
      | diverge => have := toIdxSigned_safe d i; simp [hx] at this

theorem multIdsLoop_append (a b : List Nat) (i : Nat) (acc : List Nat) :
    multIdsLoop (a ++ b) i acc =
      (multIdsLoop a i acc >>= fun acc' => multIdsLoop b (i / a.prod) acc') := by
  induction a generalizing i acc with
  | nil => simp [multIdsLoop]
  | cons d ds ih =>
    simp only [List.cons_append, multIdsLoop, List.prod_cons]
    split
    · rfl
    · rw [ih, Nat.div_div_eq_div_mul]

theorem multIdsLoop_acc (a : List Nat) (i : Nat) (acc : List Nat) :
    multIdsLoop a i acc = (multIdsLoop a i []).map (· ++ acc) := by
  induction a generalizing i acc with
  | nil => simp [multIdsLoop]
  | cons d ds ih =>
    simp only [multIdsLoop]
    split
    · rfl
    · rw [ih, ih (acc := [i % d])]
      cases multIdsLoop ds (i / d) [] <;> simp

theorem prod_reverse (l : List Nat) : l.reverse.prod = l.prod := by
  induction l with
  | nil => rfl
  | cons a l ih => rw [List.reverse_cons, List.prod_append, ih]; simp [Nat.mul_comm]

theorem multIds_rowMajor_aux (dims ids : List Nat) (h : InRange dims ids) (m : Nat) :
    multIdsLoop dims.reverse (m * dims.prod + rowMajor dims ids) [] = .ok ids := by
  induction h generalizing m with
  | nil => simp [multIdsLoop]
  | @cons i d is ds hid hds ih =>
    rw [List.reverse_cons, multIdsLoop_append]
    have e : m * (d :: ds).prod + rowMajor (d :: ds) (i :: is) =
        (m * d + i) * ds.prod + rowMajor ds is := by
      simp only [List.prod_cons, rowMajor]; ring
    have hlt := rowMajor_lt ds is hds
    rw [e, ih (m * d + i), prod_reverse]
    have e2 : ((m * d + i) * ds.prod + rowMajor ds is) / ds.prod = m * d + i := by
      rw [Nat.mul_comm, Nat.mul_add_div (by omega), Nat.div_eq_of_lt hlt, Nat.add_zero]
    rw [e2]
    have e3 : (m * d + i) % d = i := by
      rw [Nat.mul_comm, Nat.mul_add_mod, Nat.mod_eq_of_lt hid]
    simp only [Res.ok_bind, multIdsLoop]
    rw [if_neg (by omega), e3]

theorem multIds_rowMajor (dims ids : List Nat) (h : InRange dims ids) :
    multIds dims (rowMajor dims ids) = .ok ids := by
  have := multIds_rowMajor_aux dims ids h 0
  simpa [multIds] using this

theorem rowMajor_surj (dims : List Nat) (i : Nat) (h : i < dims.prod) :
    ∃ ids, InRange dims ids ∧ rowMajor dims ids = i := by
  induction dims generalizing i with
  | nil => exact ⟨[], .nil, by simp at h; simp [rowMajor, h]⟩
  | cons d ds ih =>
    rw [List.prod_cons] at h
    have hp : 0 < ds.prod := Nat.pos_of_ne_zero (by rintro e; simp [e] at h)
    obtain ⟨ids, hr, he⟩ := ih (i % ds.prod) (Nat.mod_lt _ hp)
    refine ⟨i / ds.prod :: ids, .cons ?_ hr, ?_⟩
    · exact Nat.div_lt_of_lt_mul (by rw [Nat.mul_comm]; exact h)
    · simp only [rowMajor, he]; rw [Nat.mul_comm]; exact Nat.div_add_mod i ds.prod

theorem rowMajor_lex (dims a b : List Nat) (ha : InRange dims a) (hb : InRange dims b)
    (h : List.Lex (· < ·) a b) : rowMajor dims a < rowMajor dims b := by
  induction ha generalizing b with
  | nil => cases hb; cases h
  | @cons i d is ds hid hds ih =>
    cases hb with
    | @cons j _ js _ hjd hjs =>
      simp only [rowMajor]
      cases h with
      | cons h => have := ih js hjs h; omega
      | rel h =>
        have h1 := rowMajor_lt ds is hds
        have h2 : (i + 1) * ds.prod ≤ j * ds.prod := Nat.mul_le_mul_right _ h
        rw [Nat.add_mul, Nat.one_mul] at h2
        omega

theorem inRange_zeros (n : List Nat) (hpos : ∀ d ∈ n, 0 < d) :
    InRange n (List.replicate n.length 0) := by
  induction n with
  | nil => exact .nil
  | cons d ds ih =>
    exact .cons (hpos d (by simp)) (ih fun x hx => hpos x (by simp [hx]))

theorem rowMajor_zeros (n : List Nat) : rowMajor n (List.replicate n.length 0) = 0 := by
  induction n with
  | nil => rfl
  | cons d ds ih => simp [List.replicate_succ, rowMajor, ih]

theorem incRev_append (a b na nb : List Nat) (hl : a.length = na.length) :
    incRev (a ++ b) (na ++ nb) =
      if a = na.map (· - 1) ∧ ∀ x ∈ na, 0 < x then List.replicate a.length 0 ++ incRev b nb
      else incRev a na ++ b := by
  induction a generalizing na with
  | nil => cases na <;> simp_all
  | cons x xs ih =>
    cases na with
    | nil => simp at hl
    | cons y ys =>
      simp only [List.length_cons, Nat.add_right_cancel_iff] at hl
      simp only [List.cons_append, incRev, List.map_cons, List.cons.injEq, List.mem_cons,
        forall_eq_or_imp]
      by_cases h : x + 1 = y
      · rw [if_pos h, if_pos h, ih ys hl]
        have h1 : x = y - 1 := by omega
        have h2 : 0 < y := by omega
        simp only [h1, h2, true_and]
        split <;> simp [List.replicate_succ]
      · rw [if_neg h, if_neg h, if_neg (by omega)]; simp

theorem inc_cons (d i : Nat) (ds is : List Nat) (hl : is.length = ds.length) :
    (incRev (i :: is).reverse (d :: ds).reverse).reverse =
      if is = ds.map (· - 1) ∧ ∀ x ∈ ds, 0 < x then
        (if i + 1 = d then 0 else i + 1) :: List.replicate is.length 0
      else i :: (incRev is.reverse ds.reverse).reverse := by
  rw [List.reverse_cons, List.reverse_cons, incRev_append _ _ _ _ (by simp [hl])]
  have e : (is.reverse = List.map (· - 1) ds.reverse ∧ ∀ x ∈ ds.reverse, 0 < x) ↔
      (is = ds.map (· - 1) ∧ ∀ x ∈ ds, 0 < x) := by
    rw [List.map_reverse, List.reverse_inj]; simp
  by_cases h : is = ds.map (· - 1) ∧ ∀ x ∈ ds, 0 < x
  · rw [if_pos (e.2 h), if_pos h]
    simp only [incRev]
    split <;> simp
  · rw [if_neg (fun c => h (e.1 c)), if_neg h]; simp

theorem rowMajor_max (ds : List Nat) (hp : ∀ x ∈ ds, 0 < x) :
    rowMajor ds (ds.map (· - 1)) + 1 = ds.prod := by
  induction ds with
  | nil => rfl
  | cons d ds ih =>
    simp only [List.map_cons, rowMajor, List.prod_cons]
    have := ih fun x hx => hp x (by simp [hx])
    have hd := hp d (by simp)
    obtain ⟨e, rfl⟩ : ∃ e, d = e + 1 := ⟨d - 1, by omega⟩
    simp only [Nat.add_sub_cancel]
    rw [Nat.add_assoc, this]; ring

theorem rowMajor_inj (dims a b : List Nat) (ha : InRange dims a) (hb : InRange dims b)
    (h : rowMajor dims a = rowMajor dims b) : a = b := by
  have h1 := multIds_rowMajor dims a ha
  have h2 := multIds_rowMajor dims b hb
  rw [h, h2] at h1; cases h1; rfl

theorem inRange_max (ds : List Nat) (hp : ∀ x ∈ ds, 0 < x) : InRange ds (ds.map (· - 1)) := by
  induction ds with
  | nil => exact .nil
  | cons d ds ih =>
    have := hp d (by simp)
    exact .cons (by show d - 1 < d; omega) (ih fun x hx => hp x (by simp [hx]))

theorem InRange.pos {ds is : List Nat} (h : InRange ds is) : ∀ x ∈ ds, 0 < x := by
  induction h with
  | nil => simp
  | cons h _ ih => intro x hx; rcases List.mem_cons.1 hx with rfl | hx; omega; exact ih x hx

theorem InRange.length_eq {ds is : List Nat} (h : InRange ds is) : is.length = ds.length :=
  List.Forall₂.length_eq h

theorem inc_aux (n ids : List Nat) (h : InRange n ids) :
    InRange n (incRev ids.reverse n.reverse).reverse ∧
      rowMajor n (incRev ids.reverse n.reverse).reverse = (rowMajor n ids + 1) % n.prod := by
  induction h with
  | nil => simp [incRev, rowMajor, InRange]
  | @cons i d is ds hid hds ih =>
    have hds' : InRange ds is := hds
    rw [inc_cons d i ds is hds'.length_eq]
    have hpp := rowMajor_lt ds is hds'
    by_cases hm : is = ds.map (· - 1) ∧ ∀ x ∈ ds, 0 < x
    · rw [if_pos hm]
      have hz := inRange_zeros ds hm.2
      rw [hds'.length_eq]
      have hmax := rowMajor_max ds hm.2
      rw [← hm.1] at hmax
      by_cases hc : i + 1 = d
      · rw [if_pos hc]
        refine ⟨.cons (by omega) hz, ?_⟩
        simp only [rowMajor, rowMajor_zeros, List.prod_cons]
        have : i * ds.prod + rowMajor ds is + 1 = d * ds.prod := by
          rw [Nat.add_assoc, hmax, ← hc]; ring
        rw [this]; simp
      · rw [if_neg hc]
        refine ⟨.cons (by omega) hz, ?_⟩
        simp only [rowMajor, rowMajor_zeros, List.prod_cons]
        have e : i * ds.prod + rowMajor ds is + 1 = (i + 1) * ds.prod := by
          rw [Nat.add_assoc, hmax]; ring
        rw [e, Nat.mod_eq_of_lt (Nat.mul_lt_mul_of_pos_right (by omega) (by omega))]; simp
    · rw [if_neg hm]
      refine ⟨.cons hid ih.1, ?_⟩
      simp only [rowMajor, List.prod_cons]
      rw [ih.2]
      have hne : rowMajor ds is + 1 ≠ ds.prod := by
        intro c
        apply hm
        have hp := hds'.pos
        refine ⟨rowMajor_inj ds _ _ hds' (inRange_max ds hp) ?_, hp⟩
        have := rowMajor_max ds hp; omega
      rw [Nat.mod_eq_of_lt (by omega : rowMajor ds is + 1 < ds.prod), Nat.mod_eq_of_lt]
      · omega
      · have : (i + 1) * ds.prod ≤ d * ds.prod := Nat.mul_le_mul_right _ hid
        rw [Nat.add_mul, Nat.one_mul] at this
        omega

theorem inc_spec (n ids : List Nat) (hn : n ≠ []) (h : InRange n ids) :
    ∃ ids', incrementIndexList ids n = .ok ids' ∧ InRange n ids' ∧
      rowMajor n ids' = (rowMajor n ids + 1) % n.prod := by
  have hl := h.length_eq
  refine ⟨_, ?_, inc_aux n ids h⟩
  unfold incrementIndexList
  rw [if_neg (by rintro rfl; simp at hl; exact hn (List.length_eq_zero_iff.1 hl.symm)),
    if_neg (by omega), hl, List.take_length]

end Verif.Index
