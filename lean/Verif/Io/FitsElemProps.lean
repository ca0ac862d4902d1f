import Verif.Io.FitsTableRefuted
import Mathlib.Tactic.Ring
/-!
# C127: parts of columns

`read_elements` and `update_elements` access the elements of a column whose first indices are given.
-/
namespace Verif.FitsTable
open Verif Verif.Str Verif.Core

variable {α : Type} [DecidableEq α]

/-- position in an array of the element with the given first indices, the others being zero (row-major order) -/
def offset : List Nat → List Nat → Nat
  | _ :: ds, i :: is => i * ds.prod + offset ds is
  | _, _ => 0

/-- indices smaller than the dimensions -/
def InDims : List Nat → List Nat → Prop
  | d :: ds, i :: is => i < d ∧ InDims ds is
  | _, [] => True
  | [], _ :: _ => False

/-- the dimensions of the data of a column: the rows are the first one if the table is row-oriented -/
def fullShape (f : Format) (t : Tbl α) (c : Col α) : List Nat := match f with
  | .column => c.tdim.reverse
  | .row => t.nrow :: c.tdim.reverse

omit [DecidableEq α] in
theorem infoDims_eq (f : Format) (t : Tbl α) (c : Col α) (h : c.type ≠ .string) : infoDims f t c = fullShape f t c := by
  cases f <;> simp [infoDims, fullShape, h]

theorem pitches_get (dims : List Nat) : ∀ i, i < dims.length → (pitches dims)[i]? = some (dims.drop (i + 1)).prod := by
  induction dims with
  | nil => intro i h; simp at h
  | cons d ds ih =>
    intro i h
    cases i with
    | zero => rfl
    | succ i =>
      simp only [pitches, List.getElem?_cons_succ, List.drop_succ_cons]
      exact ih i (by simpa using h)

theorem rd_some {β : Type} {l : List β} {i : Nat} {a : β} (h : l[i]? = some a) : Res.rd l i = .ok a := by
  simp [Res.rd, h]

/-- the steps after the first one are the same in both formats -/
theorem firstElement_ok (f : Format) (dims : List Nat) : ∀ (ids : List Nat) (i r s : Nat), (f = .row → i ≠ 0) → i + ids.length ≤ dims.length →
    (InDims (dims.drop i) ids → firstElement f dims (pitches dims) i ids (r, s) = .ok (r + 1, s + offset (dims.drop i) ids + 1)) ∧
    (¬ InDims (dims.drop i) ids → firstElement f dims (pitches dims) i ids (r, s) = .abort) := by
  intro ids
  induction ids with
  | nil =>
    intro i r s hf hl
    refine ⟨fun _ => ?_, fun h => absurd ?_ h⟩
    · simp only [firstElement]
      cases dims.drop i <;> rfl
    · cases dims.drop i <;> trivial
  | cons id ids ih =>
    intro i r s hf hl
    rw [List.length_cons] at hl
    have hi : i < dims.length := by omega
    have hdrop : dims.drop i = dims[i] :: dims.drop (i + 1) := List.drop_eq_getElem_cons hi
    have hstep : addIndex f i id (dims.drop (i + 1)).prod (r, s) = (r, s + id * (dims.drop (i + 1)).prod) := by
      cases f with
      | column => rfl
      | row => exact if_neg (hf rfl)
    simp only [firstElement]
    rw [rd_some (List.getElem?_eq_getElem hi), Res.ok_bind, rd_some (pitches_get dims i hi), Res.ok_bind, hdrop]
    by_cases hid : id < dims[i]
    · rw [Res.check_pos hid, Res.ok_bind, hstep]
      obtain ⟨h1, h2⟩ := ih (i + 1) r (s + id * (dims.drop (i + 1)).prod) (fun _ => by omega) (by omega)
      refine ⟨fun h => ?_, fun h => ?_⟩
      · rw [h1 h.2]
        simp only [offset]
        rw [Nat.add_assoc s]
      · rw [h2 (fun h' => h ⟨hid, h'⟩)]
    · rw [Res.check_neg hid]
      exact ⟨fun h => absurd h.1 hid, fun _ => rfl⟩

/-- position of the first element in the data of the column -/
theorem firstElement_pos (f : Format) (dims ids : List Nat) (hl : ids.length ≤ dims.length) (hd : dims ≠ []) :
    (InDims dims ids → ∃ r s, firstElement f dims (pitches dims) 0 ids (0, 0) = .ok (r + 1, s + 1) ∧
      (f = .column → r = 0 ∧ s = offset dims ids) ∧ (f = .row → r * dims.tail.prod + s = offset dims ids ∧ s = offset dims.tail ids.tail)) ∧
    (¬ InDims dims ids → firstElement f dims (pitches dims) 0 ids (0, 0) = .abort) := by
  cases f with
  | column =>
    obtain ⟨h1, h2⟩ := firstElement_ok .column dims ids 0 0 0 (by simp) (by omega)
    rw [List.drop_zero] at h1 h2
    refine ⟨fun h => ⟨0, offset dims ids, ?_, fun _ => ⟨rfl, rfl⟩, by simp⟩, h2⟩
    rw [h1 h, Nat.zero_add, Nat.zero_add]
  | row =>
    cases dims with
    | nil => exact absurd rfl hd
    | cons d ds =>
      cases ids with
      | nil =>
        refine ⟨fun _ => ⟨0, 0, rfl, by simp, fun _ => ⟨by simp [offset], by simp [offset]⟩⟩, fun h => absurd ?_ h⟩
        trivial
      | cons id ids =>
        simp only [firstElement]
        rw [rd_some rfl, Res.ok_bind, rd_some rfl, Res.ok_bind]
        by_cases hid : id < d
        · rw [Res.check_pos hid, Res.ok_bind]
          obtain ⟨h1, h2⟩ := firstElement_ok .row (d :: ds) ids 1 id 0 (by simp) (by simpa [Nat.add_comm] using hl)
          rw [List.drop_succ_cons, List.drop_zero] at h1 h2
          refine ⟨fun h => ⟨id, offset ds ids, ?_, by simp, fun _ => ⟨rfl, rfl⟩⟩, fun h => ?_⟩
          · rw [show addIndex .row 0 id ds.prod (0, 0) = (id, 0) from rfl, h1 h.2, Nat.zero_add]
          · rw [show addIndex .row 0 id ds.prod (0, 0) = (id, 0) from rfl, h2 (fun h' => h ⟨hid, h'⟩)]
        · rw [Res.check_neg hid]
          exact ⟨fun h => absurd h.1 hid, fun _ => rfl⟩

theorem offset_bound : ∀ (dims ids : List Nat), InDims dims ids → ids.length ≤ dims.length →
    offset dims ids + (dims.drop ids.length).prod ≤ dims.prod := by
  intro dims
  induction dims with
  | nil => intro ids _ hl; cases ids with
    | nil => simp [offset]
    | cons => simp at hl
  | cons d ds ih =>
    intro ids h hl
    cases ids with
    | nil => simp [offset]
    | cons i is =>
      have := ih is h.2 (by simpa using hl)
      simp only [offset, List.length_cons, List.drop_succ_cons, List.prod_cons]
      calc i * ds.prod + offset ds is + (ds.drop is.length).prod = i * ds.prod + (offset ds is + (ds.drop is.length).prod) := by ring
        _ ≤ i * ds.prod + ds.prod := by omega
        _ = (i + 1) * ds.prod := by ring
        _ ≤ d * ds.prod := Nat.mul_le_mul_right _ h.1

theorem offset_append : ∀ (dims ids js : List Nat), ids.length ≤ dims.length →
    offset dims (ids ++ js) = offset dims ids + offset (dims.drop ids.length) js := by
  intro dims
  induction dims with
  | nil => intro ids js hl; cases ids with
    | nil => simp [offset]
    | cons => simp at hl
  | cons d ds ih =>
    intro ids js hl
    cases ids with
    | nil => simp [offset]
    | cons i is =>
      simp only [List.cons_append, offset, List.length_cons, List.drop_succ_cons]
      rw [ih is js (by simpa using hl), Nat.add_assoc]

theorem offset_lt : ∀ (dims ids : List Nat), InDims dims ids → ids.length = dims.length → offset dims ids < dims.prod := by
  intro dims ids h hl
  have := offset_bound dims ids h (by omega)
  rw [hl, List.drop_length, List.prod_nil] at this
  omega

/-- a column of the table, with as many elements as its dimensions say, and of which the type is known -/
structure Holds (z one : α) (f : Format) (t : Tbl α) (name : Str) (c : Col α) (ty : CT) : Prop where
  found : lookup t name = some c
  full : c.data.length = t.nrow * c.count
  rows : f = .column → t.nrow = 1
  text : c.type ≠ .string
  dims : c.tdim ≠ []
  type : ∀ i, infoType z one t i c = .ok ty ∨ t.cols[i]? ≠ some c

omit [DecidableEq α] in
theorem full_prod (f : Format) (t : Tbl α) (c : Col α) (hs : c.type ≠ .string) (hf : c.data.length = t.nrow * c.count) (hr : f = .column → t.nrow = 1) :
    (fullShape f t c).prod = c.data.length := by
  have hk : c.count = c.tdim.prod := by simp [Col.count, hs]
  rw [hf, hk]
  cases f with
  | column => rw [hr rfl, Nat.one_mul]; exact prod_reverse _
  | row => simp only [fullShape, List.prod_cons, prod_reverse]

/-- `fits_read_col` and `fits_write_col` at the first element -/
theorem start_eq (f : Format) (t : Tbl α) (c : Col α) (hs : c.type ≠ .string) (hd : c.tdim ≠ []) (ids : List Nat) (r s : Nat)
    (hl : ids.length ≤ (fullShape f t c).length) (hin : InDims (fullShape f t c) ids) (hp : ((fullShape f t c).drop ids.length).prod ≠ 0)
    (h1 : f = .column → r = 0 ∧ s = offset (fullShape f t c) ids)
    (h2 : f = .row → r * (fullShape f t c).tail.prod + s = offset (fullShape f t c) ids ∧ s = offset (fullShape f t c).tail ids.tail) :
    r * c.count + s = offset (fullShape f t c) ids ∧ s < c.count := by
  have hk : c.count = c.tdim.prod := by simp [Col.count, hs]
  cases f with
  | column =>
    obtain ⟨rfl, rfl⟩ := h1 rfl
    refine ⟨by rw [Nat.zero_mul, Nat.zero_add], ?_⟩
    have := offset_bound _ _ hin hl
    have hpr : (fullShape .column t c).prod = c.count := by rw [hk]; exact prod_reverse _
    omega
  | row =>
    obtain ⟨e1, e2⟩ := h2 rfl
    have ht : (fullShape .row t c).tail.prod = c.count := by rw [hk]; exact prod_reverse _
    rw [ht] at e1
    refine ⟨e1, ?_⟩
    cases ids with
    | nil =>
      rw [List.length_nil, List.drop_zero] at hp
      simp only [fullShape, List.prod_cons, prod_reverse, ← hk] at hp
      rw [e2]
      have : offset (fullShape .row t c).tail ([] : List Nat).tail = 0 := by
        unfold offset
        split
        · next h => cases h
        · rfl
      rw [this]
      exact Nat.pos_of_ne_zero (fun h => hp (by rw [h, Nat.mul_zero]))
    | cons i is =>
      have hin' : InDims c.tdim.reverse is := hin.2
      have := offset_bound _ _ hin' (by simpa [fullShape] using hl)
      rw [prod_reverse, ← hk] at this
      rw [e2]
      simp only [fullShape, List.tail_cons]
      have hp' : (c.tdim.reverse.drop is.length).prod ≠ 0 := hp
      omega

/-- `read_elements` with the first indices and a range for each of the other dimensions: the elements of the column with these first
indices, in order; the dimensions are the last ones of the column. An index that is too large is an error. -/
theorem C127_read_partial (z one : α) (f : Format) (o : Opts) (t : Tbl α) (name : Str) (c : Col α) (ty : CT) (e : ET) (ids : List Nat) (n : Nat)
    (h : Holds z one f t name c ty) (hn : ids.length + n = (fullShape f t c).length) (hty : checkType o e ty = true) :
    (InDims (fullShape f t c) ids → ∃ l, readElements z one f o t name e n ids n = .ok ⟨l, (fullShape f t c).drop ids.length⟩ ∧
      l.length = ((fullShape f t c).drop ids.length).prod ∧
      ∀ js, InDims ((fullShape f t c).drop ids.length) js → js.length = n →
        l[offset ((fullShape f t c).drop ids.length) js]? = c.data[offset (fullShape f t c) (ids ++ js)]? ∧
        offset (fullShape f t c) (ids ++ js) < c.data.length) ∧
    (¬ InDims (fullShape f t c) ids → readElements z one f o t name e n ids n = .abort) := by
  obtain ⟨hfound, hfull, hrows, htext, hdims, htype⟩ := h
  obtain ⟨i, hi1, hi2⟩ := colnum_of_lookup hfound
  have hty' : infoType z one t i c = .ok ty := by
    rcases htype i with h | h
    · exact h
    · exact absurd hi2 h
  have hne : fullShape f t c ≠ [] := by
    cases f with
    | column => simpa [fullShape] using hdims
    | row => simp [fullShape]
  have hprod := full_prod f t c htext hfull hrows
  obtain ⟨hok, hbad⟩ := firstElement_pos f (fullShape f t c) ids (by omega) hne
  have hred : readElements z one f o t name e n ids n = (do
      let (r, el) ← firstElement f (fullShape f t c) (pitches (fullShape f t c)) 0 ids (0, 0)
      if n ≠ 0 ∧ ((fullShape f t c).drop ids.length).prod = 0 then .ok ⟨[], (fullShape f t c).drop ids.length⟩
      else do
        let l ← readData c r el (if n = 0 then 1 else ((fullShape f t c).drop ids.length).prod)
        .ok ⟨l, (fullShape f t c).drop ids.length⟩) := by
    simp only [readElements, hi1, hi2, hty', Res.ok_bind, infoDims_eq f t c htext, readCol_eq hi2]
    rw [Res.check_pos hn, Res.ok_bind, Res.check_pos hty, Res.ok_bind, Res.check_pos (by omega), Res.ok_bind,
      show (fullShape f t c).length - n = ids.length by omega]
  rw [hred]
  refine ⟨fun hin => ?_, fun hin => by rw [hbad hin]; rfl⟩
  have hbound := offset_bound _ _ hin (by omega)
  have hjs : ∀ l : List α, l = (c.data.drop (offset (fullShape f t c) ids)).take ((fullShape f t c).drop ids.length).prod →
      ∀ js, InDims ((fullShape f t c).drop ids.length) js → js.length = n →
        l[offset ((fullShape f t c).drop ids.length) js]? = c.data[offset (fullShape f t c) (ids ++ js)]? ∧
        offset (fullShape f t c) (ids ++ js) < c.data.length := by
    intro l hl js hj hjl
    have hlt := offset_lt _ _ hj (by rw [List.length_drop]; omega)
    have happ := offset_append (fullShape f t c) ids js (by omega)
    refine ⟨?_, by omega⟩
    rw [hl, List.getElem?_take_of_lt hlt, List.getElem?_drop, happ]
  obtain ⟨r, s, hfe, h1, h2⟩ := hok hin
  rw [hfe, Res.ok_bind]
  simp only
  by_cases h0 : n ≠ 0 ∧ ((fullShape f t c).drop ids.length).prod = 0
  · rw [if_pos h0]
    refine ⟨[], rfl, h0.2.symm, hjs _ ?_⟩
    rw [h0.2, List.take_zero]
  · rw [if_neg h0]
    have hp : ((fullShape f t c).drop ids.length).prod ≠ 0 := by
      intro hz
      apply h0
      refine ⟨?_, hz⟩
      intro hn0
      rw [show ids.length = (fullShape f t c).length by omega, List.drop_length] at hz
      simp at hz
    have hcnt : (if n = 0 then 1 else ((fullShape f t c).drop ids.length).prod) = ((fullShape f t c).drop ids.length).prod := by
      split
      · next hn0 => rw [show ids.length = (fullShape f t c).length by omega, List.drop_length]; rfl
      · rfl
    obtain ⟨hst, hlt⟩ := start_eq f t c htext hdims ids r s (by omega) hin hp h1 h2
    rw [hcnt]
    unfold readData
    rw [if_neg (by omega)]
    simp only [Nat.add_sub_cancel, hst]
    rw [if_pos (by omega), Res.ok_bind]
    refine ⟨_, rfl, ?_, hjs _ rfl⟩
    rw [List.length_take, List.length_drop]
    omega

/-- elements of a list once some are replaced -/
theorem overwrite_get {β : Type} (l v : List β) (s k : Nat) (h : s + v.length ≤ l.length) :
    (overwrite l s v)[k]? = if s ≤ k ∧ k < s + v.length then v[k - s]? else l[k]? := by
  unfold overwrite
  by_cases h1 : k < s
  · rw [if_neg (by omega), List.append_assoc, List.getElem?_append_left (by rw [List.length_take]; omega), List.getElem?_take_of_lt h1]
  · have e : (l.take s).length = s := by rw [List.length_take]; omega
    rw [List.append_assoc, List.getElem?_append_right (by omega), e]
    by_cases h2 : k < s + v.length
    · rw [if_pos ⟨by omega, h2⟩, List.getElem?_append_left (by omega)]
    · rw [if_neg (by omega), List.getElem?_append_right (by omega), List.getElem?_drop]
      congr 1
      omega

/-- `update_elements` with the first indices and a vector of the other dimensions: only the elements of the column with these first indices
change, and they are those of the vector; the other columns and the number of rows do not change. -/
theorem C127_update (z one : α) (f : Format) (t : Tbl α) (name : Str) (c : Col α) (ty : CT) (e : ET) (ids : List Nat) (v : Vec α)
    (h : Holds z one f t name c ty) (hn : ids.length + v.dims.length = (fullShape f t c).length) (hty : convertibleNarrow e ty = true)
    (hv : v.data.length = v.dims.prod) :
    (InDims (fullShape f t c) ids → v.dims = (fullShape f t c).drop ids.length → ∃ l₁ l₂ data,
      t.cols = l₁ ++ c :: l₂ ∧ updateElements z one f t name e v ids v.dims.length = .ok ⟨t.nrow, l₁ ++ { c with data := data } :: l₂⟩ ∧
      ∀ k, data[k]? = if offset (fullShape f t c) ids ≤ k ∧ k < offset (fullShape f t c) ids + v.data.length
        then v.data[k - offset (fullShape f t c) ids]? else c.data[k]?) ∧
    (¬ InDims (fullShape f t c) ids ∨ v.dims ≠ (fullShape f t c).drop ids.length → updateElements z one f t name e v ids v.dims.length = .abort) := by
  obtain ⟨hfound, hfull, hrows, htext, hdims, htype⟩ := h
  obtain ⟨i, hi1, hi2⟩ := colnum_of_lookup hfound
  have hty' : infoType z one t i c = .ok ty := by
    rcases htype i with h | h
    · exact h
    · exact absurd hi2 h
  have hne : fullShape f t c ≠ [] := by
    cases f with
    | column => simpa [fullShape] using hdims
    | row => simp [fullShape]
  have hprod := full_prod f t c htext hfull hrows
  obtain ⟨hok, hbad⟩ := firstElement_pos f (fullShape f t c) ids (by omega) hne
  obtain ⟨hlt, hget⟩ := List.getElem?_eq_some_iff.1 hi2
  have hsplit : t.cols = t.cols.take i ++ c :: t.cols.drop (i + 1) := by
    rw [← hget, ← List.drop_eq_getElem_cons hlt, List.take_append_drop]
  have hlen : (fullShape f t c).length - v.dims.length = ids.length := by omega
  constructor
  · intro hin hvd
    have hpre : updateElements z one f t name e v ids v.dims.length = (do
        let (r, el) ← firstElement f (fullShape f t c) (pitches (fullShape f t c)) 0 ids (0, 0)
        if v.data = [] then .ok t else writeCol z t i r el v.data) := by
      simp only [updateElements, hi1, hi2, hty', Res.ok_bind, infoDims_eq f t c htext]
      rw [Res.check_pos hn, Res.ok_bind, Res.check_pos (by omega), Res.ok_bind, Res.check_pos (by rw [hlen]; exact hvd), Res.ok_bind,
        Res.check_pos hty, Res.ok_bind]
    obtain ⟨r, s, hfe, h1, h2⟩ := hok hin
    rw [hpre, hfe, Res.ok_bind]
    simp only
    have hbound := offset_bound _ _ hin (by omega)
    by_cases hv0 : v.data = []
    · rw [if_pos hv0]
      refine ⟨t.cols.take i, t.cols.drop (i + 1), c.data, hsplit, ?_, ?_⟩
      · rw [← hsplit]
      · intro k
        rw [hv0, if_neg (by simp)]
    · rw [if_neg hv0]
      have hp : ((fullShape f t c).drop ids.length).prod ≠ 0 := by
        rw [← hvd, ← hv]
        simpa using hv0
      obtain ⟨hst, hsc⟩ := start_eq f t c htext hdims ids r s (by omega) hin hp h1 h2
      have hvl : v.data.length = ((fullShape f t c).drop ids.length).prod := by rw [hv, ← hvd]
      have hext : extend z t ((offset (fullShape f t c) ids + v.data.length + c.count - 1) / c.count) = t := by
        apply extend_self
        have h3 : offset (fullShape f t c) ids + v.data.length + c.count - 1 ≤ t.nrow * c.count + (c.count - 1) := by omega
        have h4 := Nat.div_le_div_right (c := c.count) h3
        rw [Nat.mul_comm, Nat.mul_add_div (by omega), Nat.div_eq_of_lt (a := c.count - 1) (by omega)] at h4
        exact h4
      refine ⟨t.cols.take i, t.cols.drop (i + 1), overwrite c.data (offset (fullShape f t c) ids) v.data, hsplit, ?_, ?_⟩
      · simp only [writeCol, hi2]
        rw [if_neg (by omega)]
        simp only [Nat.add_sub_cancel, hst, hext]
        congr 2
        rw [List.modify_eq_take_cons_drop hlt, hget]
      · intro k
        exact overwrite_get c.data v.data _ k (by omega)
  · rintro (hin | hvd)
    · by_cases hvd : v.dims = (fullShape f t c).drop ids.length
      · simp only [updateElements, hi1, hi2, hty', Res.ok_bind, infoDims_eq f t c htext]
        rw [Res.check_pos hn, Res.ok_bind, Res.check_pos (by omega), Res.ok_bind, Res.check_pos (by rw [hlen]; exact hvd), Res.ok_bind,
          Res.check_pos hty, Res.ok_bind, hbad hin]
        rfl
      · simp only [updateElements, hi1, hi2, hty', Res.ok_bind, infoDims_eq f t c htext]
        rw [Res.check_pos hn, Res.ok_bind, Res.check_pos (by omega), Res.ok_bind, Res.check_neg (by rw [hlen]; exact hvd)]
        rfl
    · simp only [updateElements, hi1, hi2, hty', Res.ok_bind, infoDims_eq f t c htext]
      rw [Res.check_pos hn, Res.ok_bind, Res.check_pos (by omega), Res.ok_bind, Res.check_neg (by rw [hlen]; exact hvd)]
      rfl

/-! ### Failures -/

/-- the number of dimensions of the vector is not compared to the number of ranges: with all the indices given, a vector is filled from an element in the
middle of the column, and reads the elements of other indices -/
theorem C127_ranges_refuted : ∃ t : Tbl Int, writeColumn 0 .column (newTable .column) nameA .int (vec [1, 2, 3, 4, 5, 6] [3, 2]) = .ok t ∧
    readElements 0 1 .column {} t nameA .int 1 [1, 1] 0 = .ok (vec [4, 5] [2]) := by
  refine ⟨_, rfl, ?_⟩
  decide +kernel

/-- update of a single element with a vector also changes the elements after it -/
theorem C127_update_refuted : ∃ t t' : Tbl Int, writeColumn 0 .column (newTable .column) nameA .int (vec [1, 2, 3, 4, 5, 6] [3, 2]) = .ok t ∧
    updateElements 0 1 .column t nameA .int (vec [7, 8] [2]) [1, 1] 0 = .ok t' ∧
    readColumn .column {} t' nameA .int 2 0 = .ok (some (vec [1, 2, 3, 7, 8, 6] [3, 2])) := by
  refine ⟨_, _, rfl, rfl, rfl⟩

/-- a vector of one dimension in a row-oriented table has two dimensions for `read_elements` -/
theorem C127_rows_refuted : ∃ t : Tbl Int, writeColumn 0 .row (newTable .row) nameA .int (vec [1, 2, 3] [3]) = .ok t ∧
    readColumn .row {} t nameA .int 1 0 = .ok (some (vec [1, 2, 3] [3])) ∧
    readElements 0 1 .row {} t nameA .int 0 [1] 0 = .abort ∧ readElements 0 1 .row {} t nameA .int 0 [1, 0] 0 = .ok (vec [2] []) := by
  refine ⟨_, rfl, rfl, rfl, rfl⟩

/-- whether elements of a column of characters can be read depends on their values -/
theorem C127_type_refuted : ∃ t t' : Tbl Int, writeColumn 0 .column (newTable .column) nameA .char (vec [1, 2, 3] [3]) = .ok t ∧
    writeColumn 0 .column (newTable .column) nameA .char (vec [0, 1, 1] [3]) = .ok t' ∧
    readColumn .column {} t' nameA .char 1 0 = .ok (some (vec [0, 1, 1] [3])) ∧
    readElements 0 1 .column {} t nameA .char 1 [] 1 = .ok (vec [1, 2, 3] [3]) ∧ readElements 0 1 .column {} t' nameA .char 1 [] 1 = .abort := by
  refine ⟨_, _, rfl, rfl, rfl, ?_, ?_⟩ <;> decide +kernel

/-! ### Concrete cases -/

/-- two rows of two by two numbers -/
def cElem : Col Int := ⟨"A".toList, .longlong, [2, 2], [1, 2, 3, 4, 5, 6, 7, 8]⟩

example : Holds 0 1 .row ⟨2, [cElem]⟩ nameA cElem .longlong ∧ fullShape .row ⟨2, [cElem]⟩ cElem = [2, 2, 2] ∧ InDims [2, 2, 2] [1, 0] :=
  ⟨⟨rfl, rfl, by simp, by decide, by decide, fun _ => .inl rfl⟩, rfl, ⟨by decide, by decide, trivial⟩⟩

example : readElements 0 1 .row {} ⟨2, [cElem]⟩ nameA .int 1 [1, 0] 1 = .ok (vec [5, 6] [2]) := by decide +kernel

example : ∃ t, updateElements 0 1 .row ⟨2, [cElem]⟩ nameA .int (vec [9, 9] [2]) [1, 0] 1 = .ok t ∧
    readColumn .row {} t nameA .int 3 0 = .ok (some (vec [1, 2, 3, 4, 9, 9, 7, 8] [2, 2, 2])) := ⟨_, rfl, rfl⟩

end Verif.FitsTable
