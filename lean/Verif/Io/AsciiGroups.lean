import Verif.Io.TableProps
import Mathlib.Tactic.Ring
import Mathlib.Data.List.GetD
/-!
# Groups of columns in ASCII tables: `ascii::columns` (C244)

`ascii::columns(m, a, b, ...)` stands for the columns `a(_,0)`, `b(_,0)`, ..., `a(_,1)`, `b(_,1)`, ... The elements are already formatted, as in C82.
-/
namespace Verif.Io
open Verif Verif.Str

/-! ### Model -/

/-- a 2-D vector (row-major) -/
structure Mat where
  rows : Nat
  cols : Nat
  cells : List Str
deriving DecidableEq

/-- an argument of `write_table`: a vector, or `columns(m, ...)` (`io/ascii.hpp:61-71`) -/
inductive TArg
  | col (c : Col)
  | group (m : Nat) (vs : List Mat)
deriving DecidableEq

/-- what `write_table_check_size_` looks at (`io/ascii.hpp:490-503`): the vectors of the group, not their number -/
def TArg.parts : TArg → List Col
  | .col c => [c]
  | .group _ vs => vs.map fun v => .v2 v.rows v.cols v.cells

/-- the cells of an argument on line `i` (`io/ascii.hpp:562-617`): `v.safe(i,k)` is not checked. The cells of a line are all read before the first one is written, while the code reads and writes them in turn: this only matters for the kind of failure. -/
def TArg.cells (i : Nat) : TArg → Res (List Str)
  | .col c => colCells i c
  | .group m vs => do
    let g ← (List.range m).mapM fun k => vs.mapM fun v => Res.rd v.cells (i * v.cols + k)
    .ok g.flatten

/-- `write_table_do_` for line `i` -/
def groupLine (i : Nat) : List TArg → Res (List Str)
  | [] => .ok []
  | a :: as => do
    let x ← a.cells i
    let y ← groupLine i as
    .ok (x ++ y)

/-- the cache (`io/ascii.hpp:436-453`): the cells of the lines one after the other in a table of `r` lines and `c` columns; those that are not written are empty -/
def cacheTable (r c : Nat) (lines : List (List Str)) : List (List Str) :=
  (List.range r).map fun i => (List.range c).map fun j => lines.flatten.getD (i * c + j) []

/-- `write_table` (`io/ascii.hpp:624-704`) with groups of columns -/
def writeGroups (o : OutFmt) (args : List TArg) : Res Str := do
  let (r, c) ← checkSize (args.flatMap TArg.parts) 0 0
  if o.header ≠ [] ∧ o.header.length ≠ c then .abort
  else
    let cw := List.replicate c o.minWidth
    if o.autoWidth then do
      let lines ← (List.range r).mapM fun i => do
        let cells ← groupLine i args
        cacheRow cw 0 cells
      let cache := cacheTable r c lines
      let cw := cw.mapIdx fun j w => colWidth o cache j w
      let h ← writeHeader o cw
      let ls ← cache.mapM fun row => do
        let l ← writeRow o.delim cw 0 row
        .ok (l ++ ['\n'])
      .ok (h ++ ls.flatten)
    else do
      let h ← writeHeader o cw
      let ls ← (List.range r).mapM fun i => do
        let cells ← groupLine i args
        let l ← writeRow o.delim cw 0 cells
        .ok (l ++ ['\n'])
      .ok (h ++ ls.flatten)

/-! ### Specification -/

/-- the columns that an argument stands for -/
def TArg.columns : TArg → List Col
  | .col c => [c]
  | .group m vs => (List.range m).flatMap fun k => vs.map fun v => .v1 ((List.range v.rows).map fun i => v.cells.getD (i * v.cols + k) [])

/-- the argument has `r` lines, and the vectors of a group have as many columns as the group -/
def TArg.Good (r : Nat) : TArg → Prop
  | .col c => c.WF ∧ c.rows = r
  | .group m vs => 0 < m ∧ ∀ v ∈ vs, v.rows = r ∧ v.cols = m ∧ v.cells.length = r * m

/-! ### Lemmas -/

theorem good_columns {r : Nat} {a : TArg} (h : a.Good r) : ∀ c ∈ a.columns, c.WF ∧ c.rows = r := by
  cases a with
  | col c => intro x hx; simp only [TArg.columns, List.mem_singleton] at hx; subst hx; exact h
  | group m vs =>
    intro x hx
    simp only [TArg.columns, List.mem_flatMap, List.mem_map] at hx
    obtain ⟨k, -, v, hv, rfl⟩ := hx
    exact ⟨trivial, by simp [Col.rows, (h.2 v hv).1]⟩

theorem good_parts {r : Nat} {a : TArg} (h : a.Good r) : ∀ c ∈ a.parts, c.rows = r := by
  cases a with
  | col c => intro x hx; simp only [TArg.parts, List.mem_singleton] at hx; subst hx; exact h.2
  | group m vs =>
    intro x hx
    simp only [TArg.parts, List.mem_map] at hx
    obtain ⟨v, hv, rfl⟩ := hx
    exact (h.2 v hv).1

theorem ncols_append (a b : List Col) : ncols (a ++ b) = ncols a + ncols b := by simp [ncols]

theorem ncols_const (l : List Col) (n : Nat) (h : ∀ c ∈ l, c.cols = n) : ncols l = l.length * n := by
  induction l with
  | nil => simp [ncols]
  | cons c l ih =>
    have := ih fun x hx => h x (by simp [hx])
    simp only [ncols, List.map_cons, List.sum_cons, List.length_cons] at this ⊢
    rw [this, h c (by simp)]
    ring

theorem good_ncols {r : Nat} {a : TArg} (h : a.Good r) : ncols a.parts = ncols a.columns := by
  cases a with
  | col c => rfl
  | group m vs =>
    rw [ncols_const _ m (by
        intro c hc
        simp only [TArg.parts, List.mem_map] at hc
        obtain ⟨v, hv, rfl⟩ := hc
        exact (h.2 v hv).2.1), ncols_const _ 1 (by
        intro c hc
        simp only [TArg.columns, List.mem_flatMap, List.mem_map] at hc
        obtain ⟨k, -, v, hv, rfl⟩ := hc
        rfl)]
    simp [TArg.parts, TArg.columns, List.length_flatMap]
    ring

theorem good_empty {r : Nat} {a : TArg} (h : a.Good r) : a.columns = [] → a.parts = [] := by
  cases a with
  | col c => intro h; cases h
  | group m vs =>
    intro he
    cases vs with
    | nil => rfl
    | cons v vs =>
      exfalso
      have h0 : (0 : Nat) ∈ List.range m := List.mem_range.2 h.1
      have := List.flatMap_eq_nil_iff.1 he 0 h0
      simp at this

theorem group_row {r m : Nat} {vs : List Mat} (h : (TArg.group m vs).Good r) (i : Nat) (hi : i < r) :
    tableRow (TArg.group m vs).columns i = ((List.range m).map fun k => vs.map fun v => v.cells.getD (i * v.cols + k) []).flatten := by
  simp only [tableRow, TArg.columns, List.flatMap_assoc]
  rw [← List.flatMap_def]
  refine List.flatMap_congr fun k _ => ?_
  rw [List.flatMap_map, List.map_eq_flatMap]
  refine List.flatMap_congr fun v hv => ?_
  have hiv : i < v.rows := by rw [(h.2 v hv).1]; exact hi
  have : i < ((List.range v.rows).map fun i => v.cells.getD (i * v.cols + k) []).length := by simpa using hiv
  simp only [Col.row]
  rw [List.drop_eq_getElem_cons this]
  simp

theorem good_cells {r : Nat} {a : TArg} (h : a.Good r) (i : Nat) (hi : i < r) : a.cells i = lineCells i a.columns := by
  rw [(lineCells_ok fun c hc => ⟨(good_columns h c hc).1, by rw [(good_columns h c hc).2]; exact hi⟩).1]
  cases a with
  | col c =>
    show colCells i c = _
    rw [colCells_ok h.1 (by rw [h.2]; exact hi)]
    simp [tableRow, TArg.columns]
  | group m vs =>
    have h1 : ∀ k ∈ List.range m, (vs.mapM fun v => Res.rd v.cells (i * v.cols + k)) = .ok (vs.map fun v => v.cells.getD (i * v.cols + k) []) := by
      intro k hk
      refine Res.mapM_ok fun v hv => ?_
      obtain ⟨-, e2, e3⟩ := h.2 v hv
      have hlt : i * v.cols + k < v.cells.length := by rw [e2, e3]; exact mul_add_lt hi (List.mem_range.1 hk)
      rw [Res.rd_lt hlt, List.getD_eq_getElem _ _ hlt]
    show ((List.range m).mapM (fun k => vs.mapM fun v => Res.rd v.cells (i * v.cols + k)) >>= _) = _
    rw [Res.mapM_ok h1, Res.ok_bind]
    rw [group_row h i hi]

theorem good_line {r : Nat} {args : List TArg} (h : ∀ a ∈ args, a.Good r) (i : Nat) (hi : i < r) : groupLine i args = lineCells i (args.flatMap TArg.columns) := by
  have hok : ∀ as : List TArg, (∀ a ∈ as, a.Good r) → lineCells i (as.flatMap TArg.columns) = .ok (tableRow (as.flatMap TArg.columns) i) := by
    intro as has
    refine (lineCells_ok fun c hc => ?_).1
    obtain ⟨a, ha, hc⟩ := List.mem_flatMap.1 hc
    exact ⟨(good_columns (has a ha) c hc).1, by rw [(good_columns (has a ha) c hc).2]; exact hi⟩
  induction args with
  | nil => rfl
  | cons a as ih =>
    have ih := ih fun x hx => h x (by simp [hx])
    have ha := h a (by simp)
    rw [hok _ h]
    show (a.cells i >>= _) = _
    have h1 := hok [a] (by simpa using ha)
    rw [show [a].flatMap TArg.columns = a.columns by simp] at h1
    rw [good_cells ha i hi, h1, Res.ok_bind, ih, hok _ fun x hx => h x (by simp [hx]), Res.ok_bind]
    simp [tableRow]

theorem flatten_cut (lines : List (List Str)) (c : Nat) (h : ∀ l ∈ lines, l.length = c) : cacheTable lines.length c lines = lines := by
  have key : ∀ i (hi : i < lines.length), ∀ j, j < c → lines.flatten.getD (i * c + j) [] = lines[i].getD j [] := by
    induction lines with
    | nil => intro i hi; simp at hi
    | cons l ls ih =>
      intro i hi j hj
      have hl := h l (by simp)
      cases i with
      | zero =>
        rw [List.flatten_cons, Nat.zero_mul, Nat.zero_add, List.getD_append _ _ _ _ (by omega)]
        rfl
      | succ i =>
        rw [List.flatten_cons, List.getD_append_right _ _ _ _ (by rw [hl, Nat.add_mul]; omega)]
        rw [show (i + 1) * c + j - l.length = i * c + j by rw [hl, Nat.add_mul, Nat.one_mul]; omega]
        exact ih (fun x hx => h x (by simp [hx])) i (by simpa using hi) j hj
  apply List.ext_getElem (by simp [cacheTable])
  intro i h1 h2
  simp only [cacheTable, List.getElem_map, List.getElem_range]
  apply List.ext_getElem (by simp [h _ (List.getElem_mem h2)])
  intro j h3 h4
  simp only [List.getElem_map, List.getElem_range]
  rw [key i h2 j (by simpa using h3), List.getD_eq_getElem _ _ h4]

theorem cut_at {E : Type} {n : Nat} : ∀ (rows : List (List E)), (∀ r ∈ rows, r.length = n) → rows.flatten.length = rows.length * n ∧
    ∀ i < rows.length, ∀ k < n, rows.flatten[i * n + k]? = (rows[i]?).bind (·[k]?)
  | [], _ => by simp
  | r :: rs, h => by
    obtain ⟨h1, h2⟩ := cut_at rs fun x hx => h x (List.mem_cons_of_mem _ hx)
    have hr := h r List.mem_cons_self
    constructor
    · rw [List.flatten_cons, List.length_append, h1, hr, List.length_cons, Nat.succ_mul, Nat.add_comm]
    · intro i hi k hk
      rw [List.flatten_cons]
      cases i with
      | zero => rw [Nat.zero_mul, Nat.zero_add, List.getElem?_append_left (by omega)]; rfl
      | succ i =>
        rw [List.getElem?_append_right (by rw [hr, Nat.succ_mul]; omega), hr, show (i + 1) * n + k - n = i * n + k by rw [Nat.succ_mul]; omega]
        exact h2 i (by simpa using hi) k hk

/-! ### C244 -/

/-- **C244 (in part)**: if the vectors of each group have as many columns as the group, then a group is written exactly as the columns it stands for. -/
theorem C244_write_partial (o : OutFmt) (r : Nat) (args : List TArg) (h : ∀ a ∈ args, a.Good r) : writeGroups o args = writeTable o (args.flatMap TArg.columns) := by
  have hcols : ∀ c ∈ args.flatMap TArg.columns, c.WF ∧ c.rows = r := by
    intro c hc
    obtain ⟨a, ha, hc⟩ := List.mem_flatMap.1 hc
    exact good_columns (h a ha) c hc
  have hparts : ∀ c ∈ args.flatMap TArg.parts, c.rows = r := by
    intro c hc
    obtain ⟨a, ha, hc⟩ := List.mem_flatMap.1 hc
    exact good_parts (h a ha) c hc
  have hn : ncols (args.flatMap TArg.parts) = ncols (args.flatMap TArg.columns) := by
    clear hcols hparts
    induction args with
    | nil => rfl
    | cons a as ih => rw [List.flatMap_cons, List.flatMap_cons, ncols_append, ncols_append, good_ncols (h a (by simp)), ih fun x hx => h x (by simp [hx])]
  by_cases he : args.flatMap TArg.columns = []
  · have he' : args.flatMap TArg.parts = [] := by
      rw [List.flatMap_eq_nil_iff] at he ⊢
      exact fun a ha => good_empty (h a ha) (he a ha)
    unfold writeGroups writeTable
    rw [he, he']
    show (Res.ok (0, 0) >>= _) = (Res.ok (0, 0) >>= _)
    rw [Res.ok_bind, Res.ok_bind]
    rfl
  have he' : args.flatMap TArg.parts ≠ [] := by
    intro hp
    apply he
    rw [List.flatMap_eq_nil_iff] at hp ⊢
    intro a ha
    have h1 := hp a ha
    have h2 := good_ncols (h a ha)
    cases a with
    | col c => cases h1
    | group m vs =>
      have : vs = [] := by simpa [TArg.parts] using h1
      subst this
      simp [TArg.columns]
  unfold writeGroups writeTable
  rw [checkSize_zero (fun c hc => (hcols c hc).2) he, checkSize_zero hparts he', hn, Res.ok_bind, Res.ok_bind]
  dsimp only
  split
  · rfl
  have hline := fun i (hi : i < r) => good_line h i hi
  have hrow : ∀ i < r, lineCells i (args.flatMap TArg.columns) = .ok (tableRow (args.flatMap TArg.columns) i) ∧
      (tableRow (args.flatMap TArg.columns) i).length = ncols (args.flatMap TArg.columns) := fun i hi =>
    lineCells_ok fun c hc => ⟨(hcols c hc).1, by rw [(hcols c hc).2]; exact hi⟩
  set C := args.flatMap TArg.columns with hC
  split
  · have h1 : ∀ i ∈ List.range r, (groupLine i args >>= fun cells => cacheRow (List.replicate (ncols C) o.minWidth) 0 cells) =
        .ok (aligned (tableRow C i) (List.replicate (ncols C) o.minWidth)) := by
      intro i hi
      have hi := List.mem_range.1 hi
      rw [hline i hi, (hrow i hi).1, Res.ok_bind, cacheRow_ok _ _ _ (by simp [(hrow i hi).2])]
      rfl
    have h2 : ∀ i ∈ List.range r, (lineCells i C >>= fun cells => cacheRow (List.replicate (ncols C) o.minWidth) 0 cells) =
        .ok (aligned (tableRow C i) (List.replicate (ncols C) o.minWidth)) := by
      intro i hi
      have hi := List.mem_range.1 hi
      rw [(hrow i hi).1, Res.ok_bind, cacheRow_ok _ _ _ (by simp [(hrow i hi).2])]
      rfl
    rw [Res.mapM_ok h1, Res.mapM_ok h2, Res.ok_bind, Res.ok_bind]
    have h3 := flatten_cut ((List.range r).map fun i => aligned (tableRow C i) (List.replicate (ncols C) o.minWidth)) (ncols C) (by
      intro l hl
      obtain ⟨i, hi, rfl⟩ := List.mem_map.1 hl
      rw [aligned_length (by simp [(hrow i (List.mem_range.1 hi)).2])]
      simp)
    rw [List.length_map, List.length_range] at h3
    rw [h3]
  · have h1 : ∀ cw : List Nat, (List.range r).mapM (fun i => do
        let cells ← groupLine i args
        let l ← writeRow o.delim cw 0 cells
        Res.ok (l ++ ['\n'])) = (List.range r).mapM (fun i => do
        let cells ← lineCells i C
        let l ← writeRow o.delim cw 0 cells
        Res.ok (l ++ ['\n'])) := by
      intro cw
      have : ∀ l : List Nat, (∀ i ∈ l, i < r) → l.mapM (fun i => do
        let cells ← groupLine i args
        let l ← writeRow o.delim cw 0 cells
        Res.ok (l ++ ['\n'])) = l.mapM (fun i => do
        let cells ← lineCells i C
        let l ← writeRow o.delim cw 0 cells
        Res.ok (l ++ ['\n'])) := by
        intro l hl
        induction l with
        | nil => rfl
        | cons i l ih => rw [List.mapM_cons, List.mapM_cons, ih fun x hx => hl x (by simp [hx]), hline i (hl i (by simp))]
      exact this _ fun i hi => List.mem_range.1 hi
    rw [h1]

/-- the cell of line `i` of the vector `t` in the column `k` of a group is at the place `k*n + t`, where `n` is the number of vectors: this is where `read_table` takes it
(`io/ascii.hpp:252-292`) -/
theorem C244_place (m : Nat) (vs : List Mat) (r i k t : Nat) (hi : i < r) (hk : k < m) (v : Mat) (hv : vs[t]? = some v) (h : (TArg.group m vs).Good r) :
    (tableRow (TArg.group m vs).columns i)[k * vs.length + t]? = v.cells[i * m + k]? := by
  have ht : t < vs.length := (List.getElem?_eq_some_iff.1 hv).1
  obtain ⟨-, e2, e3⟩ := h.2 v (List.mem_of_getElem? hv)
  rw [group_row h i hi]
  have h2 := (cut_at ((List.range m).map fun k => vs.map fun v => v.cells.getD (i * v.cols + k) []) (n := vs.length) (by simp)).2 k (by simpa using hk) t ht
  rw [h2]
  have hlt : i * m + k < v.cells.length := by rw [e3]; exact mul_add_lt hi hk
  simp [hk, hv, e2, hlt]

/-- **C244 (in part)**: a group of vectors of words that is written is read back by the same group: line `i` of the file has the value `v(i,k)` of the vector `t` at the place `k*n + t`,
which `read_table` stores in `v(i,k)` (`io/ascii.hpp:252-292`). -/
theorem C244_roundtrip_partial (o : OutFmt) (m : Nat) (vs : List Mat) (r : Nat) (h : (TArg.group m vs).Good r) (hne : vs ≠ []) (hh : GoodHeader o (m * vs.length))
    (hd : o.delim ≠ [] ∧ ∀ c ∈ o.delim, c = ' ' ∨ c = '\t') (hw : ∀ v ∈ vs, ∀ s ∈ v.cells, Word s ∧ s.head? ≠ some '#') :
    ∃ file rows, writeGroups o [.group m vs] = .ok file ∧ readTable file {} (List.replicate (m * vs.length) (.read some)) = .ok rows ∧ rows.length = r ∧
      ∀ i < r, ∃ row, rows[i]? = some row ∧ row.length = m * vs.length ∧
        ∀ k < m, ∀ (t : Nat) (v : Mat), vs[t]? = some v → ∃ s, v.cells[i * m + k]? = some s ∧ row[k * vs.length + t]? = some s := by
  have hn : ncols (TArg.group m vs).columns = m * vs.length := by
    rw [ncols_const _ 1 (by
        intro c hc
        simp only [TArg.columns, List.mem_flatMap, List.mem_map] at hc
        obtain ⟨k, -, v, hv, rfl⟩ := hc
        rfl)]
    simp [TArg.columns, List.length_flatMap]
  have hwords : ∀ i < r, ∀ s ∈ tableRow (TArg.group m vs).columns i, Word s ∧ s.head? ≠ some '#' := by
    intro i hi s hs
    rw [group_row h i hi] at hs
    simp only [List.mem_flatten, List.mem_map, List.mem_range] at hs
    obtain ⟨_, ⟨k, hk, rfl⟩, hs⟩ := hs
    obtain ⟨v, hv, rfl⟩ := List.mem_map.1 hs
    obtain ⟨-, e2, e3⟩ := h.2 v hv
    have hlt : i * v.cols + k < v.cells.length := by rw [e2, e3]; exact mul_add_lt hi hk
    rw [List.getD_eq_getElem _ _ hlt]
    exact hw v hv _ (List.getElem_mem hlt)
  have hg := good_columns h
  obtain ⟨file, h1, h2⟩ := C82_roundtrip o (TArg.group m vs).columns r (fun c hc => (hg c hc).1) (fun c hc => (hg c hc).2)
    (by rw [hn]; exact Nat.mul_ne_zero (by have := h.1; omega) (by simpa using hne)) (by rw [hn]; exact hh) hd (fun i hi s hs => (hwords i hi s hs).1)
    (fun i hi s hs => (hwords i hi s (List.mem_of_mem_head? hs)).2)
  rw [hn] at h2
  refine ⟨file, _, ?_, h2, by simp, ?_⟩
  · rw [C244_write_partial o r _ (by simpa using h)]
    simpa using h1
  · intro i hi
    refine ⟨tableRow (TArg.group m vs).columns i, by simp [hi], ?_, ?_⟩
    · rw [← hn]
      exact (lineCells_ok fun c hc => ⟨(hg c hc).1, by rw [(hg c hc).2]; exact hi⟩).2
    · intro k hk t v hv
      obtain ⟨-, e2, e3⟩ := h.2 v (List.mem_of_getElem? hv)
      have hlt : i * m + k < v.cells.length := by rw [e3]; exact mul_add_lt hi hk
      refine ⟨_, List.getElem?_eq_getElem hlt, ?_⟩
      rw [C244_place m vs r i k t hi hk v hv h, List.getElem?_eq_getElem hlt]

/-- the hypotheses of `C244_roundtrip_partial` can be met -/
example : (TArg.group 2 [⟨2, 2, ["a".toList, "b".toList, "c".toList, "d".toList]⟩, ⟨2, 2, ["e".toList, "f".toList, "g".toList, "h".toList]⟩]).Good 2 := by
  refine ⟨by decide, fun v hv => ?_⟩
  simp only [List.mem_cons, List.not_mem_nil, or_false] at hv
  rcases hv with rfl | rfl <;> decide

/-- **C244 is false**: with a smaller number, the values of the lines are mixed: the two lines `a b` and `c d` become the lines `a c` and an empty one. -/
theorem C244_less_refuted : writeGroups {} [.group 1 [⟨2, 2, ["a".toList, "b".toList, "c".toList, "d".toList]⟩]] = .ok "a c\n   \n".toList := by decide +kernel

/-- **C244 is false**: with a larger number, memory is read out of bounds. -/
theorem C244_more_refuted : writeGroups {} [.group 3 [⟨1, 2, ["a".toList, "b".toList]⟩]] = .ub := by decide +kernel

example : writeGroups {} [.col (.v1 ["1".toList, "2".toList]), .group 2 [⟨2, 2, ["a".toList, "b".toList, "c".toList, "d".toList]⟩, ⟨2, 2, ["e".toList, "f".toList, "g".toList, "h".toList]⟩]] =
    .ok "1 a e b f\n2 c g d h\n".toList := by decide +kernel

end Verif.Io
