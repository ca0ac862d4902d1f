import Verif.Io.FitsTable
import Mathlib.Algebra.BigOperators.Group.List.Basic
import Mathlib.Data.List.Induction
/-!
Helper results on the model of FITS tables.
-/
namespace Verif.FitsTable
open Verif Verif.Str Verif.Core

variable {α : Type}

theorem toUpper_toUpper (c : Char) : c.toUpper.toUpper = c.toUpper := by
  unfold Char.toUpper
  split
  · next h =>
    rw [dif_neg]
    intro h'
    have h1 := h.1
    have h2 := h.2
    have h3 := h'.1
    simp only [UInt32.le_iff_toNat_le] at h1 h2 h3
    rw [UInt32.toNat_add] at h3
    have e1 : 'a'.val.toNat = 97 := by decide
    have e2 : 'z'.val.toNat = 122 := by decide
    have e3 : ('A'.val - 'a'.val).toNat = 4294967264 := by decide
    omega
  · rfl

theorem upper_upper (s : Str) : upper (upper s) = upper s := by
  simp only [upper, List.map_map]
  congr 1
  funext c
  exact toUpper_toUpper c

/-- the column of a name -/
def lookup (t : Tbl α) (name : Str) : Option (Col α) :=
  match t.cols.filter (fun c => upper c.name = upper name) with
  | [c] => some c
  | _ => none

theorem filter_range (l : List (Col α)) (k : Str) :
    ((List.range l.length).filter (fun i => (l[i]?).map (fun c => upper c.name) = some k)).map (fun i => l[i]?) =
      (l.filter (fun c => upper c.name = k)).map some := by
  induction l using List.reverseRecOn with
  | nil => rfl
  | append_singleton l a ih =>
    rw [List.length_append, List.length_singleton, List.range_succ, List.filter_append, List.filter_append, List.map_append, List.map_append, ← ih]
    have h1 : (List.range l.length).filter (fun i => ((l ++ [a])[i]?).map (fun c => upper c.name) = some k) =
        (List.range l.length).filter (fun i => (l[i]?).map (fun c => upper c.name) = some k) := by
      apply List.filter_congr
      intro i hi
      rw [List.getElem?_append_left (List.mem_range.1 hi)]
    rw [h1]
    congr 1
    · apply List.map_congr_left
      intro i hi
      rw [List.getElem?_append_left (List.mem_range.1 (List.mem_filter.1 hi).1)]
    · by_cases h : upper a.name = k <;> simp [h]

/-- `colnum` finds the column of `lookup` -/
theorem colnum_some {t : Tbl α} {name : Str} {i : Nat} (h : colnum t name = some i) : ∃ c, t.cols[i]? = some c ∧ lookup t name = some c := by
  unfold colnum at h
  have hf := filter_range t.cols (upper name)
  split at h
  · next j hj =>
    rw [hj] at hf
    cases h
    cases hc : t.cols.filter (fun c => upper c.name = upper name) with
    | nil => rw [hc] at hf; simp at hf
    | cons c l =>
      rw [hc] at hf
      cases l with
      | nil =>
        refine ⟨c, ?_, ?_⟩
        · simpa using hf
        · simp [lookup, hc]
      | cons d l => simp at hf
  · cases h

theorem colnum_none {t : Tbl α} {name : Str} (h : colnum t name = none) : lookup t name = none := by
  unfold colnum at h
  have hf := filter_range t.cols (upper name)
  split at h
  · cases h
  · next hj =>
    unfold lookup
    split
    · next c hc =>
      rw [hc] at hf
      exfalso
      cases hl : (List.range t.cols.length).filter (fun i => (t.cols[i]?).map (fun c => upper c.name) = some (upper name)) with
      | nil => rw [hl] at hf; simp at hf
      | cons a l =>
        cases l with
        | nil => exact hj a hl
        | cons b l => rw [hl] at hf; simp at hf
    · rfl

theorem colnum_eq_none {t : Tbl α} {name : Str} : colnum t name = none ↔ lookup t name = none := by
  refine ⟨colnum_none, fun h => ?_⟩
  cases hc : colnum t name with
  | none => rfl
  | some i =>
    obtain ⟨c, -, h2⟩ := colnum_some hc
    rw [h] at h2
    cases h2

theorem colnum_of_lookup {t : Tbl α} {name : Str} {c : Col α} (h : lookup t name = some c) : ∃ i, colnum t name = some i ∧ t.cols[i]? = some c := by
  cases hc : colnum t name with
  | none => rw [colnum_none hc] at h; cases h
  | some i =>
    obtain ⟨c', h1, h2⟩ := colnum_some hc
    rw [h] at h2
    cases h2
    exact ⟨i, rfl, h1⟩

/-- elements of a column -/
def readData (c : Col α) (firstrow firstelem n : Nat) : Res (List α) :=
  if firstrow = 0 ∨ firstelem = 0 ∨ c.count < firstelem then .abort
  else
    if (firstrow - 1) * c.count + (firstelem - 1) + n ≤ c.data.length then
      .ok ((c.data.drop ((firstrow - 1) * c.count + (firstelem - 1))).take n) else .abort

theorem readCol_eq {t : Tbl α} {i : Nat} {c : Col α} (h : t.cols[i]? = some c) (r e n : Nat) : readCol t i r e n = readData c r e n := by
  simp only [readCol, h, readData]

/-- what `readColumn` does with its column -/
def readLook (f : Format) (o : Opts) (nrow : Nat) (c : Col α) (e : ET) (dim : Nat) (z : α) : Res (Option (Vec α)) := do
  Res.check (checkType o e c.type = true)
  let axes := axesOf f (⟨nrow, []⟩ : Tbl α) c
  Res.check (checkDim o axes.length dim = true)
  let dims := resizeDims axes dim
  let n := dims.prod
  if n = 0 then .ok (some ⟨[], dims⟩)
  else if rowsOf f (⟨nrow, []⟩ : Tbl α) = 0 then .ok (some ⟨List.replicate n z, dims⟩)
  else do
    let l ← readData c 1 1 n
    .ok (some ⟨l, dims⟩)

theorem readColumn_eq (f : Format) (o : Opts) (t : Tbl α) (name : Str) (e : ET) (dim : Nat) (z : α) :
    readColumn f o t name e dim z = match lookup t name with
      | none => if o.missing then .ok none else .abort
      | some c => readLook f o t.nrow c e dim z := by
  cases hc : colnum t name with
  | none => rw [colnum_none hc]; simp only [readColumn, hc]
  | some i =>
    obtain ⟨c, h1, h2⟩ := colnum_some hc
    rw [h2]
    simp only [readColumn, hc, h1, readCol_eq h1]
    cases f <;> rfl

theorem lookup_append {t : Tbl α} {l : List (Col α)} {name : Str} (h : ∀ c ∈ l, upper c.name ≠ upper name) (n : Nat) :
    lookup (⟨n, t.cols ++ l⟩ : Tbl α) name = lookup t name := by
  have : l.filter (fun c => upper c.name = upper name) = [] := by
    rw [List.filter_eq_nil_iff]
    intro c hc
    simpa using h c hc
  simp only [lookup, List.filter_append, this, List.append_nil]

theorem lookup_new {t : Tbl α} {c : Col α} {name : Str} (h : ∀ d ∈ t.cols, upper d.name ≠ upper name) (hc : upper c.name = upper name) (n : Nat) :
    lookup (⟨n, t.cols ++ [c]⟩ : Tbl α) name = some c := by
  have : t.cols.filter (fun c => upper c.name = upper name) = [] := by
    rw [List.filter_eq_nil_iff]
    intro c hc
    simpa using h c hc
  simp only [lookup, List.filter_append, this, List.nil_append, List.filter_singleton, hc, decide_true, if_true]
  rfl

theorem lookup_nil {n : Nat} {name : Str} : lookup (⟨n, []⟩ : Tbl α) name = none := rfl

theorem count_eq {n : Str} {ty : CT} {d : List Nat} {l : List α} (h : ty ≠ .string) : (⟨n, ty, d, l⟩ : Col α).count = d.prod := by
  simp [Col.count, h]

theorem count_string {n : Str} {m : Nat} {d : List Nat} {l : List α} : (⟨n, .string, m :: d, l⟩ : Col α).count = d.prod := by
  simp [Col.count]

theorem tdimOf_prod (d : List Nat) : (tdimOf d).prod = d.prod := by
  unfold tdimOf
  split
  · next h => subst h; rfl
  · rfl

theorem writtenAs_string {e : ET} (h : e ≠ .string) : writtenAs e ≠ .string := by
  cases e <;> simp_all [writtenAs]

theorem ceil_mul (r c : Nat) (h : 0 < c) : (r * c + c - 1) / c = r := by
  have h1 : r * c + c - 1 = c * r + (c - 1) := by rw [Nat.mul_comm]; omega
  rw [h1, Nat.mul_add_div h, Nat.div_eq_of_lt (by omega), Nat.add_zero]

theorem modify_last {β : Type} (l : List β) (a : β) (f : β → β) : (l ++ [a]).modify l.length f = l ++ [f a] := by
  induction l with
  | nil => rfl
  | cons b l ih => simp [ih]

/-- data written in a column that was just created -/
theorem insert_write (z : α) (t : Tbl α) (name : Str) (ty : CT) (td : List Nat) (v : List α) (r : Nat)
    (hv : v.length = r * (⟨name, ty, td, []⟩ : Col α).count) (hc : 0 < (⟨name, ty, td, []⟩ : Col α).count) :
    writeCol z (insertCol z t name ty td) t.cols.length 1 1 v = .ok ⟨max t.nrow r, (extend z t r).cols ++
      [⟨name, ty, td, v ++ List.replicate ((max t.nrow r - r) * (⟨name, ty, td, []⟩ : Col α).count) z⟩]⟩ := by
  have hcount : ∀ l : List α, (⟨name, ty, td, l⟩ : Col α).count = (⟨name, ty, td, []⟩ : Col α).count := fun l => rfl
  generalize hk : (⟨name, ty, td, []⟩ : Col α).count = k at *
  have hi : insertCol z t name ty td = ⟨t.nrow, t.cols ++ [⟨name, ty, td, List.replicate (t.nrow * k) z⟩]⟩ := by
    simp only [insertCol, hk]
  rw [hi]
  have hg : (t.cols ++ [(⟨name, ty, td, List.replicate (t.nrow * k) z⟩ : Col α)])[t.cols.length]? =
      some ⟨name, ty, td, List.replicate (t.nrow * k) z⟩ := by simp
  have hlen : ((extend z t r).cols).length = t.cols.length := by simp [extend]
  simp only [writeCol, hg, hcount]
  rw [if_neg (by omega), Nat.sub_self, Nat.zero_mul, Nat.zero_add, Nat.zero_add, hv, ceil_mul r k hc]
  congr 1
  have he : extend z (⟨t.nrow, t.cols ++ [⟨name, ty, td, List.replicate (t.nrow * k) z⟩]⟩ : Tbl α) r =
      ⟨max t.nrow r, (extend z t r).cols ++ [⟨name, ty, td, List.replicate (max t.nrow r * k) z⟩]⟩ := by
    simp only [extend, List.map_append, List.map_cons, List.map_nil, hcount, List.replicate_append_replicate]
    rw [← Nat.add_mul, show t.nrow + (max t.nrow r - t.nrow) = max t.nrow r by omega]
  rw [he]
  simp only
  rw [← hlen, modify_last]
  congr 4
  simp only [overwrite, List.take_zero, List.nil_append, Nat.zero_add, List.drop_replicate, hv, Nat.sub_mul]

/-- nothing changes if there are enough rows -/
theorem extend_self (z : α) (t : Tbl α) (r : Nat) (h : r ≤ t.nrow) : extend z t r = t := by
  unfold extend
  rw [Nat.max_eq_left h, Nat.sub_self]
  simp

theorem resize_eq {axes : List Nat} {dim : Nat} (h : axes.length ≤ dim) :
    resizeDims axes dim = List.replicate (dim - axes.length) 1 ++ axes.reverse := by
  unfold resizeDims
  rw [if_neg (by omega)]
  apply List.ext_getElem?
  intro i
  by_cases hi : i < dim
  · rw [List.getElem?_map, List.getElem?_range hi, Option.map_some]
    by_cases h2 : i < dim - axes.length
    · rw [if_pos h2, List.getElem?_append_left (by simpa using h2), List.getElem?_replicate, if_pos h2]
    · rw [if_neg h2, List.getElem?_append_right (by simp; omega), List.length_replicate, List.getElem?_reverse (by omega),
        List.getD_eq_getElem?_getD, show axes.length - 1 - (i - (dim - axes.length)) = dim - 1 - i by omega]
      rw [List.getElem?_eq_getElem (by omega)]
      rfl
  · rw [List.getElem?_eq_none (by simpa using hi), List.getElem?_eq_none (by simp; omega)]

end Verif.FitsTable
