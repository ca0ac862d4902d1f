import Verif.Io.FitsTableProps
/-!
# C125: where the columns of FITS tables are not read back, and concrete cases of the theorems
-/
namespace Verif.FitsTable
open Verif Verif.Str Verif.Core

variable {α : Type}

/-- once a name is used twice, neither column can be read; removal does nothing -/
theorem C125_duplicate_refuted (z : α) (f : Format) (o : Opts) (t t' : Tbl α) (name : Str) (e e' : ET) (v : Vec α) (dim : Nat) (hi : Inv f t)
    (hs : Shaped v) (he : e ≠ .string) (hf : ¬ Free t name) (ho : o.missing = false) (hw : writeColumn z f t name e v = .ok t') :
    readColumn f o t' name e' dim z = .abort ∧ removeColumn t' name = t' := by
  obtain ⟨rfl, -⟩ := write_ok z f t t' name e v hi hs he hw
  have hn : lookup (⟨rowsAfter f t v.dims, t.cols ++ [colOf f name e v]⟩ : Tbl α) name = none := by
    unfold Free at hf
    push Not at hf
    obtain ⟨c, hc, hcn⟩ := hf
    have hmem : c ∈ t.cols.filter (fun c => upper c.name = upper name) := List.mem_filter.2 ⟨hc, by simpa using hcn⟩
    unfold lookup
    simp only [List.filter_append]
    rw [List.filter_cons_of_pos (by simp [colOf, upper_upper])]
    cases hl : t.cols.filter (fun c => upper c.name = upper name) with
    | nil => rw [hl] at hmem; cases hmem
    | cons a l => cases l <;> rfl
  rw [readColumn_eq, hn, remove_none hn]
  simp [ho]

/-- a small vector of numbers -/
def vec (l : List Int) (d : List Nat) : Vec Int := ⟨l, d⟩

def nameA : Str := "a".toList
def nameB : Str := "b".toList

/-- update of a column whose name is used twice: one more column -/
theorem C125_duplicate_update_refuted : ∃ t : Tbl Int, writeAll 0 .column (newTable .column)
    [(nameA, .int, vec [1] [1]), (nameA, .int, vec [2] [1])] = .ok t ∧
    ∃ t', updateColumn 0 .column t nameA .int (vec [3] [1]) = .ok t' ∧ t'.cols.length = 3 := by
  refine ⟨_, rfl, _, rfl, rfl⟩

/-- a row-oriented column of dimensions `(n,1)` is refused, or read as `(1,n)` if dimensions can be added -/
theorem C125_ones_refuted : ∃ t : Tbl Int, writeColumn 0 .row (newTable .row) nameA .int (vec [1, 2] [2, 1]) = .ok t ∧
    readColumn .row {} t nameA .int 2 0 = .abort ∧
    readColumn .row { promote := true } t nameA .int 2 0 = .ok (some (vec [1, 2] [1, 2])) := by
  refine ⟨_, rfl, rfl, rfl⟩

/-- the rows of a first column without elements are lost -/
theorem C125_empty_refuted : ∃ t : Tbl Int, writeColumn 0 .row (newTable .row) nameA .int (vec [] [5, 0]) = .ok t ∧
    readColumn .row {} t nameA .int 2 0 = .ok (some (vec [] [0, 0])) := by
  refine ⟨_, rfl, rfl⟩

/-- a row-oriented table with one row is column-oriented once opened again: the number of dimensions is not the same -/
theorem C125_reopen_refuted : ∃ t : Tbl Int, writeColumn 0 .row (newTable .row) nameA .int (vec [1, 2, 3] [1, 3]) = .ok t ∧
    readColumn .row {} t nameA .int 2 0 = .ok (some (vec [1, 2, 3] [1, 3])) ∧ readColumn (formatOf t) {} t nameA .int 2 0 = .abort := by
  refine ⟨_, rfl, rfl, rfl⟩

/-- a file object obtained by a move reads only the first row of a row-oriented table, without error -/
theorem C125_move_refuted : ∃ t : Tbl Int, writeColumn 0 .row (newTable .row) nameA .int (vec [1, 2, 3] [3]) = .ok t ∧
    readColumn (movedFormat .row) {} t nameA .int 1 0 = .ok (some (vec [1] [1])) := by
  refine ⟨_, rfl, rfl⟩

/-- a number can be read from a row-oriented column with several rows, not from a column-oriented one with several elements -/
theorem C125_scalar_refuted : ∃ t t' : Tbl Int, writeColumn 0 .row (newTable .row) nameA .int (vec [1, 2, 3] [3]) = .ok t ∧
    writeColumn 0 .column (newTable .column) nameA .int (vec [1, 2, 3] [3]) = .ok t' ∧
    readScalar .row {} t nameA .int 0 = .ok (some 1) ∧ readScalar .column {} t' nameA .int 0 = .abort := by
  refine ⟨_, _, rfl, rfl, rfl, rfl⟩

/-- update of the only column of a row-oriented table by a shorter one: elements are added; by a longer one: it works -/
theorem C125_update_refuted : ∃ t : Tbl Int, writeColumn 0 .row (newTable .row) nameA .int (vec [1, 2, 3] [3]) = .ok t ∧
    ∃ t', updateColumn 0 .row t nameA .int (vec [5] [1]) = .ok t' ∧ readColumn .row {} t' nameA .int 1 0 = .ok (some (vec [5, 0, 0] [3])) := by
  refine ⟨_, rfl, _, rfl, rfl⟩

/-- characters after a null one, and blanks at the ends, are lost -/
theorem C125_strings_refuted : ∃ t : Tbl Str, writeStrings .column (newTable .column) nameA ⟨["a\x00b".toList], [1]⟩ = .ok t ∧
    readStrings .column {} t nameA 1 = .ok (some ⟨["a".toList], [1]⟩) := by
  refine ⟨_, rfl, ?_⟩
  decide +kernel

/-! ### Scalars -/

/-- a number written in a table is read back, and in a row-oriented table this needs at most one row -/
theorem C125_scalar (z : α) (f : Format) (o : Opts) (t t' : Tbl α) (name : Str) (e : ET) (x : α) (hi : Inv f t) (he : e ≠ .string) (hf : Free t name)
    (hw : writeScalar z f t name e x = .ok t') : readScalar f o t' name e z = .ok (some x) ∧ (f = .row → t.cols ≠ [] → t.nrow = 1) := by
  have hk : ∀ l : List α, (⟨upper name, writtenAs e, [1], l⟩ : Col α).count = 1 := fun l => by
    rw [count_eq (writtenAs_string he)]; rfl
  simp only [writeScalar, createCol] at hw
  by_cases hc : t.cols ≠ [] ∧ f = .row → 1 = t.nrow
  · rw [Res.check_pos hc, Res.ok_bind, Res.ok_bind, show tdimOf [] = [1] from rfl,
      insert_write z t _ _ _ [x] 1 (by rw [hk]; rfl) (by rw [hk]; omega)] at hw
    cases hw
    have hn : max t.nrow 1 = 1 := by
      cases f with
      | column => simp only [Inv] at hi; omega
      | row =>
        by_cases hcl : t.cols = []
        · have := hi hcl; omega
        · have := hc ⟨hcl, rfl⟩; omega
    refine ⟨?_, fun h h' => (hc ⟨h', h⟩).symm⟩
    rw [hn, Nat.sub_self, Nat.zero_mul, List.replicate_zero, List.append_nil]
    have hlook : lookup (⟨1, (extend z t 1).cols ++ [⟨upper name, writtenAs e, [1], [x]⟩]⟩ : Tbl α) name =
        some ⟨upper name, writtenAs e, [1], [x]⟩ := by
      apply lookup_new (t := extend z t 1)
      · intro d hd
        simp only [extend, List.mem_map] at hd
        obtain ⟨d', hd', rfl⟩ := hd
        exact hf d' hd'
      · exact upper_upper name
    obtain ⟨i, hi1, hi2⟩ := colnum_of_lookup hlook
    simp only [readScalar, hi1, hi2, readCol_eq hi2]
    have ht : checkType o e (writtenAs e) = true := by
      unfold checkType
      cases e <;> cases o.narrow <;> rfl
    have hax : axesOf f (⟨1, (extend z t 1).cols ++ [⟨upper name, writtenAs e, [1], [x]⟩]⟩ : Tbl α) ⟨upper name, writtenAs e, [1], [x]⟩ = [1] := by
      cases f with
      | column => rfl
      | row => simp [axesOf, writtenAs_string he]
    rw [Res.check_pos ht, Res.ok_bind, hax, Res.check_pos (by simp), Res.ok_bind, Res.check_pos (by simp [checkDim]), Res.ok_bind, if_neg]
    · simp [readData, hk, Res.ok_bind]
    · cases f <;> simp [rowsOf]
  · rw [Res.check_neg hc] at hw
    cases hw

/-! ### Concrete cases -/

example : Shaped (vec [1, 2, 3, 4, 5, 6] [2, 3]) ∧ Inv .row (newTable .row : Tbl Int) ∧ Free (newTable .row : Tbl Int) nameA ∧
    (vec [1, 2, 3, 4, 5, 6] [2, 3]).dims.tail ≠ [1] ∧ 0 ∉ (vec [1, 2, 3, 4, 5, 6] [2, 3]).dims.tail := by
  refine ⟨⟨by decide, rfl⟩, fun _ => rfl, ?_, by decide, by decide⟩
  intro c hc
  simp [newTable] at hc

/-- two columns of three rows, one of them with vectors -/
def two : List (Str × ET × Vec Int) := [(nameA, .int, vec [1, 2, 3] [3]), (nameB, .float, vec [1, 2, 3, 4, 5, 6] [3, 2])]

example : (∀ x ∈ two, Good .row 3 x) ∧ two.Pairwise (fun x y => upper x.1 ≠ upper y.1) ∧ ∀ x ∈ two.head?, 0 ∉ x.2.2.dims.tail := by
  refine ⟨?_, ?_, ?_⟩
  · intro x hx
    simp only [two, List.mem_cons, List.not_mem_nil, or_false] at hx
    rcases hx with rfl | rfl
    · exact ⟨⟨by decide, rfl⟩, by decide, fun _ => ⟨rfl, by decide⟩⟩
    · exact ⟨⟨by decide, rfl⟩, by decide, fun _ => ⟨rfl, by decide⟩⟩
  · simp only [two, List.pairwise_cons, List.mem_singleton, forall_eq, List.not_mem_nil, false_imp_iff, implies_true, List.Pairwise.nil, and_true]
    decide
  · intro x hx
    simp only [two, List.head?_cons, Option.mem_some_iff] at hx
    subst hx
    decide

example : ∃ t t' : Tbl Int, writeAll 0 .row (newTable .row) two = .ok t ∧ updateColumn 0 .row t nameA .int (vec [7, 8, 9] [3]) = .ok t' ∧
    readColumn .row {} t' nameA .int 1 0 = .ok (some (vec [7, 8, 9] [3])) ∧
    readColumn .row {} t' nameB .float 2 0 = .ok (some (vec [1, 2, 3, 4, 5, 6] [3, 2])) := by
  refine ⟨_, _, rfl, rfl, rfl, rfl⟩

example : ∃ t : Tbl Int, allocateColumn 0 .row (newTable .row) nameA .int [2, 3] = .ok t ∧
    readColumn .row {} t nameA .int 2 0 = .ok (some (vec [0, 0, 0, 0, 0, 0] [2, 3])) := by
  refine ⟨_, rfl, rfl⟩

example : ∃ t : Tbl Str, writeStrings .row (newTable .row) nameA ⟨[" a".toList, "bc ".toList], [2]⟩ = .ok t ∧
    readStrings .row {} t nameA 1 = .ok (some ⟨["a".toList, "bc".toList], [2]⟩) := by
  refine ⟨_, rfl, ?_⟩
  decide +kernel

end Verif.FitsTable
