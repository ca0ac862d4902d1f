import Verif.Tools.FitsColumns
import Verif.Tools.FitstoolRemove
import Verif.Core.RearrangeProps
import Verif.Io.FitsTableLemmas
/-!
# Removing and transposing columns with `fitstool` (C184, C185)
-/
namespace Verif.Fitstool
open Verif Verif.Str

variable {α : Type}

/-! ### Specification -/

/-- what a line meaning: yes, no, or nothing -/
def meaning (line : Str) : Option Bool :=
  let l := line.map Char.toLower
  if l = ['y'] ∨ l = ['y', 'e', 's'] then some true else if l = ['n'] ∨ l = ['n', 'o'] then some false else none

/-- the answers in the input -/
def answers (lines : List Str) : List Bool := lines.filterMap meaning

/-- the names asked for, in upper case -/
def upNames (cols : List Str) : List Str := cols.map (·.map Char.toUpper)

/-- the columns of the table that have none of these names -/
def without (t : List (Col α)) (names : List Str) : List (Col α) := t.filter fun c => decide (c.name ∉ names)

/-- the names that no column has -/
def unknown (t : List (Col α)) (names : List Str) : List Str := names.filter fun n => decide (n ∉ t.map Col.name)

/-- a cell of `a` by `b` values and its transpose: the first index varies fastest -/
def IsTransposed (a b : Nat) (x y : List α) : Prop :=
  x.length = a * b ∧ y.length = a * b ∧ ∀ i j, i < a → j < b → y[i * b + j]? = x[j * a + i]?

/-! ### Helpers -/

theorem confirm_says (lines : List Str) :
    (answers lines = [] ∧ confirm lines = .diverge) ∨
    ∃ b rest, answers lines = b :: answers rest ∧ confirm lines = .ok (b, rest) := by
  induction lines with
  | nil => left; exact ⟨rfl, rfl⟩
  | cons l ls ih =>
    unfold confirm
    dsimp only
    have ha : answers (l :: ls) = match meaning l with | some b => b :: answers ls | none => answers ls := by
      unfold answers
      rw [List.filterMap_cons]
      cases meaning l <;> rfl
    rw [ha]
    unfold meaning
    dsimp only
    have e1 : "y".toList = ['y'] := rfl
    have e2 : "yes".toList = ['y', 'e', 's'] := rfl
    have e3 : "n".toList = ['n'] := rfl
    have e4 : "no".toList = ['n', 'o'] := rfl
    rw [e1, e2, e3, e4]
    by_cases h1 : l.map Char.toLower = ['y'] ∨ l.map Char.toLower = ['y', 'e', 's']
    · rw [if_pos h1, if_pos h1]; right; exact ⟨true, ls, rfl, rfl⟩
    · rw [if_neg h1, if_neg h1]
      by_cases h2 : l.map Char.toLower = ['n'] ∨ l.map Char.toLower = ['n', 'o']
      · rw [if_pos h2, if_pos h2]; right; exact ⟨false, ls, rfl, rfl⟩
      · rw [if_neg h2, if_neg h2]; exact ih

theorem colNum_none {t : List (Col α)} {n : Str} : colNum t n = none ↔ n ∉ t.map Col.name := by
  induction t with
  | nil => simp [colNum]
  | cons c t ih =>
    unfold colNum
    by_cases h : c.name = n
    · simp [h]
    · simp only [if_neg h, Option.map_eq_none_iff, ih, List.map_cons, List.mem_cons, not_or]
      exact ⟨fun h' => ⟨fun h2 => h h2.symm, h'⟩, fun h' => h'.2⟩

theorem colNum_some {t : List (Col α)} {n : Str} {i : Nat} (h : colNum t n = some i) : ∃ hi : i < t.length, t[i].name = n := by
  induction t generalizing i with
  | nil => simp [colNum] at h
  | cons c t ih =>
    unfold colNum at h
    by_cases hc : c.name = n
    · simp only [if_pos hc, Option.some.injEq] at h; subst h; exact ⟨by simp, by simpa using hc⟩
    · simp only [if_neg hc, Option.map_eq_some_iff] at h
      obtain ⟨j, hj, rfl⟩ := h
      obtain ⟨h1, h2⟩ := ih hj
      exact ⟨by simpa using h1, by simpa using h2⟩

theorem erase_filter {t : List (Col α)} (hd : (t.map Col.name).Nodup) {n : Str} {i : Nat} (h : colNum t n = some i) :
    t.eraseIdx i = t.filter fun c => decide (c.name ≠ n) := by
  induction t generalizing i with
  | nil => simp
  | cons c t ih =>
    simp only [List.map_cons, List.nodup_cons] at hd
    unfold colNum at h
    by_cases hc : c.name = n
    · simp only [if_pos hc, Option.some.injEq] at h; subst h
      rw [List.eraseIdx_cons_zero, List.filter_cons_of_neg (by simp [hc])]
      symm
      rw [List.filter_eq_self]
      intro x hx
      simp only [decide_eq_true_eq]
      intro hxn
      exact hd.1 (List.mem_map.2 ⟨x, hx, by rw [hxn, hc]⟩)
    · simp only [if_neg hc, Option.map_eq_some_iff] at h
      obtain ⟨j, hj, rfl⟩ := h
      rw [List.eraseIdx_cons_succ, List.filter_cons_of_pos (by simp [hc]), ih hd.2 hj]

theorem deleteCol_eq {t : List (Col α)} (hd : (t.map Col.name).Nodup) (n : Str) :
    deleteCol t n = t.filter fun c => decide (c.name ≠ n) := by
  unfold deleteCol
  cases h : colNum t n with
  | none =>
    symm
    dsimp only
    rw [List.filter_eq_self]
    intro c hc
    simp only [decide_eq_true_eq]
    rintro rfl
    exact colNum_none.1 h (List.mem_map.2 ⟨c, hc, rfl⟩)
  | some i => exact erase_filter hd h

theorem deleteCols_eq (names : List Str) {t : List (Col α)} (hd : (t.map Col.name).Nodup) :
    names.foldl deleteCol t = without t names := by
  induction names generalizing t with
  | nil => simp [without]
  | cons n names ih =>
    rw [List.foldl_cons, deleteCol_eq hd, ih (hd.sublist (List.filter_sublist.map _))]
    unfold without
    rw [List.filter_filter]
    congr 1
    funext c
    simp [Bool.and_comm]

/-- the columns found by `get_columns` -/
def known (t : List (Col α)) (names : List Str) : List Str := names.filter fun n => decide (n ∈ t.map Col.name)

theorem getColumns_force (t : List (Col α)) (names lines : List Str) :
    getColumns t true names lines = .ok (some (known t names), lines) := by
  induction names with
  | nil => rfl
  | cons n names ih =>
    unfold getColumns known
    cases h : colNum t n with
    | none =>
      dsimp only
      rw [if_pos rfl, ih, List.filter_cons_of_neg (by simpa using colNum_none.1 h)]; rfl
    | some i =>
      have : n ∈ t.map Col.name := by
        by_contra hc; rw [← colNum_none] at hc; rw [hc] at h; cases h
      dsimp only
      rw [ih, Res.ok_bind, List.filter_cons_of_pos (by simpa using this)]; rfl

/-- the questions on unknown columns -/
theorem getColumns_ask (t : List (Col α)) (names lines : List Str) :
    let k := (unknown t names).length
    (∀ rest, answers lines = List.replicate k true ++ rest → ∃ lines', getColumns t false names lines = .ok (some (known t names), lines') ∧ answers lines' = rest) ∧
    (∀ j rest, j < k → answers lines = List.replicate j true ++ false :: rest → ∃ lines', getColumns t false names lines = .ok (none, lines')) ∧
    (∀ j, j < k → answers lines = List.replicate j true → getColumns t false names lines = .diverge) := by
  induction names generalizing lines with
  | nil =>
    refine ⟨fun rest h => ⟨lines, rfl, by simpa [unknown] using h⟩, fun j rest h => by simp [unknown] at h, fun j h => by simp [unknown] at h⟩
  | cons n names ih =>
    dsimp only at ih ⊢
    unfold getColumns
    cases h : colNum t n with
    | some i =>
      have hm : n ∈ t.map Col.name := by
        by_contra hc; rw [← colNum_none] at hc; rw [hc] at h; cases h
      have e1 : unknown t (n :: names) = unknown t names := List.filter_cons_of_neg (by simpa using hm)
      have e2 : known t (n :: names) = n :: known t names := List.filter_cons_of_pos (by simpa using hm)
      obtain ⟨i1, i2, i3⟩ := ih lines
      dsimp only
      rw [e1, e2]
      refine ⟨fun rest hr => ?_, fun j rest hj hr => ?_, fun j hj hr => ?_⟩
      · obtain ⟨l', h1, h2⟩ := i1 rest hr
        exact ⟨l', by rw [h1]; rfl, h2⟩
      · obtain ⟨l', h1⟩ := i2 j rest hj hr
        exact ⟨l', by rw [h1]; rfl⟩
      · rw [i3 j hj hr]; rfl
    | none =>
      have hm := colNum_none.1 h
      have e1 : unknown t (n :: names) = n :: unknown t names := List.filter_cons_of_pos (by simpa using hm)
      have e2 : known t (n :: names) = known t names := List.filter_cons_of_neg (by simpa using hm)
      dsimp only
      rw [e1, e2, if_neg (by simp), List.length_cons]
      refine ⟨fun rest hr => ?_, fun j rest hj hr => ?_, fun j hj hr => ?_⟩
      · rw [List.replicate_succ, List.cons_append] at hr
        rcases confirm_says lines with ⟨h1, _⟩ | ⟨b, l', h1, h2⟩
        · rw [h1] at hr; cases hr
        · rw [h1] at hr
          obtain ⟨rfl, hr2⟩ := List.cons.inj hr
          rw [h2, Res.ok_bind]
          exact (ih l').1 rest hr2
      · rcases confirm_says lines with ⟨h1, _⟩ | ⟨b, l', h1, h2⟩
        · rw [h1] at hr; simp at hr
        · rw [h1] at hr
          cases j with
          | zero =>
            obtain ⟨rfl, hr2⟩ := List.cons.inj hr
            rw [h2, Res.ok_bind]
            exact ⟨l', rfl⟩
          | succ j =>
            rw [List.replicate_succ, List.cons_append] at hr
            obtain ⟨rfl, hr2⟩ := List.cons.inj hr
            rw [h2, Res.ok_bind]
            exact (ih l').2.1 j rest (by omega) hr2
      · rcases confirm_says lines with ⟨h1, h2⟩ | ⟨b, l', h1, h2⟩
        · rw [h2]; rfl
        · rw [h1] at hr
          cases j with
          | zero => cases hr
          | succ j =>
            rw [List.replicate_succ] at hr
            obtain ⟨rfl, hr2⟩ := List.cons.inj hr
            rw [h2, Res.ok_bind]
            exact (ih l').2.2 j (by omega) hr2

theorem without_known (t : List (Col α)) (names : List Str) : without t (known t names) = without t names := by
  unfold without
  apply List.filter_congr
  intro c hc
  have : c.name ∈ t.map Col.name := List.mem_map.2 ⟨c, hc, rfl⟩
  simp only [known, List.mem_filter, decide_eq_true_eq, this, and_true]

/-! ### C184 -/

/-- With `force`, the columns with these names (in upper case) are removed and the others stay as they are, in order, without a question. -/
theorem C184_force (t : List (Col α)) (cols : List Str) (lines : List Str) (hd : (t.map Col.name).Nodup) :
    removeColumns t cols true lines = .ok (without t (upNames cols)) := by
  unfold removeColumns
  by_cases hc : cols = []
  · rw [if_pos hc, hc]; simp [upNames, without]
  · rw [if_neg hc, getColumns_force, Res.ok_bind]
    dsimp only
    rw [if_pos rfl, Res.ok_bind]
    dsimp only
    rw [if_pos rfl, deleteCols_eq _ hd, without_known]
    rfl

/-- Without it, one question is asked for each unknown name and one before removing. If they are all answered by yes, the columns are removed; at the first no
nothing is done. If the input ends before, the program does not. -/
theorem C184_ask (t : List (Col α)) (cols : List Str) (lines : List Str) (hc : cols ≠ []) (hd : (t.map Col.name).Nodup) :
    let k := (unknown t (upNames cols)).length + 1
    (∀ rest, answers lines = List.replicate k true ++ rest → removeColumns t cols false lines = .ok (without t (upNames cols))) ∧
    (∀ j rest, j < k → answers lines = List.replicate j true ++ false :: rest → removeColumns t cols false lines = .ok t) ∧
    (∀ j, j < k → answers lines = List.replicate j true → removeColumns t cols false lines = .diverge) := by
  dsimp only
  unfold removeColumns
  rw [if_neg hc]
  obtain ⟨i1, i2, i3⟩ := getColumns_ask t (upNames cols) lines
  have last : ∀ rest, answers lines = List.replicate (unknown t (upNames cols)).length true ++ rest → ∀ (f : Option (List Str) × List Str → Res (List (Col α))),
      ∃ lines', answers lines' = rest ∧ (getColumns t false (upNames cols) lines >>= f) = f (some (known t (upNames cols)), lines') := by
    intro rest hr f
    obtain ⟨l', h1, h2⟩ := i1 rest hr
    exact ⟨l', h2, by rw [h1, Res.ok_bind]⟩
  change (∀ rest, _ → (getColumns t false (upNames cols) lines >>= _) = _) ∧ (∀ j rest, _ → _ → (getColumns t false (upNames cols) lines >>= _) = _) ∧
    (∀ j, _ → _ → (getColumns t false (upNames cols) lines >>= _) = _)
  refine ⟨fun rest hr => ?_, fun j rest hj hr => ?_, fun j hj hr => ?_⟩
  · rw [List.replicate_succ', List.append_assoc] at hr
    obtain ⟨l', h1, h2⟩ := last _ hr _
    rw [h2]
    dsimp only
    rw [if_neg (by simp)]
    rcases confirm_says l' with ⟨h3, _⟩ | ⟨b, l2, h3, h4⟩
    · rw [h3] at h1; cases h1
    · rw [h3] at h1
      obtain ⟨rfl, _⟩ := List.cons.inj h1
      rw [h4, Res.ok_bind]
      dsimp only
      rw [if_pos rfl, deleteCols_eq _ hd, without_known]
  · by_cases hj' : j < (unknown t (upNames cols)).length
    · obtain ⟨l', h1⟩ := i2 j rest hj' hr
      rw [h1, Res.ok_bind]
    · have : j = (unknown t (upNames cols)).length := by omega
      subst this
      obtain ⟨l', h1, h2⟩ := last _ hr _
      rw [h2]
      dsimp only
      rw [if_neg (by simp)]
      rcases confirm_says l' with ⟨h3, _⟩ | ⟨b, l2, h3, h4⟩
      · rw [h3] at h1; cases h1
      · rw [h3] at h1
        obtain ⟨rfl, _⟩ := List.cons.inj h1
        rw [h4, Res.ok_bind]
        rfl
  · by_cases hj' : j < (unknown t (upNames cols)).length
    · rw [i3 j hj' hr]; rfl
    · have : j = (unknown t (upNames cols)).length := by omega
      subst this
      obtain ⟨l', h1, h2⟩ := last [] (by rw [hr, List.append_nil]) _
      rw [h2]
      dsimp only
      rw [if_neg (by simp)]
      rcases confirm_says l' with ⟨h3, h4⟩ | ⟨b, l2, h3, h4⟩
      · rw [h4]; rfl
      · rw [h3] at h1; cases h1

/-- Columns whose names have lower case letters cannot be removed, whatever names are given. -/
theorem C184_case_refuted (t : List (Col α)) (cols lines : List Str) (c : Col α) (hc : c ∈ t) (hl : ∃ x ∈ c.name, x.toUpper ≠ x) (hd : (t.map Col.name).Nodup) :
    ∃ t', removeColumns t cols true lines = .ok t' ∧ c ∈ t' := by
  refine ⟨_, C184_force t cols lines hd, ?_⟩
  rw [without, List.mem_filter]
  refine ⟨hc, ?_⟩
  simp only [decide_eq_true_eq, upNames, List.mem_map, not_exists, not_and]
  rintro n _ hn
  obtain ⟨x, hx, hxu⟩ := hl
  rw [← hn, List.mem_map] at hx
  obtain ⟨y, _, rfl⟩ := hx
  exact hxu (FitsTable.toUpper_toUpper y)

/-- a small table: two columns of one row -/
def exTable : List (Col Nat) := [⟨"RA".toList, [2], [[1, 2]]⟩, ⟨"DEC".toList, [2], [[3, 4]]⟩]

example : (exTable.map Col.name).Nodup ∧ removeColumns exTable ["ra".toList] true [] = .ok [⟨"DEC".toList, [2], [[3, 4]]⟩] ∧
    removeColumns exTable ["ra".toList, "x".toList] false ["y".toList, "".toList, "YES".toList] = .ok [⟨"DEC".toList, [2], [[3, 4]]⟩] ∧
    removeColumns exTable ["ra".toList, "x".toList] false ["y".toList, "no".toList] = .ok exTable := by decide +kernel
example : (unknown exTable (upNames ["ra".toList, "x".toList])).length = 1 ∧ answers ["y".toList, "".toList, "YES".toList] = [true, true] := by decide +kernel
example : ∃ x ∈ "ra".toList, x.toUpper ≠ x := ⟨'r', by decide, by decide⟩

/-! ### Helpers of C185 -/

/-- a column of two-dimensional cells that is complete -/
def Whole2 (c : Col α) : Prop := ∃ a b x xs, c.naxes = [a, b] ∧ c.rows = x :: xs ∧ x.length = a * b

/-- `c'` is `c` with the cell of its first row transposed -/
def TransposedCol (c c' : Col α) : Prop :=
  c'.name = c.name ∧ c'.rows.length = c.rows.length ∧ ∃ a b x y, c.naxes = [a, b] ∧ c'.naxes = [b, a] ∧ c.rows.head? = some x ∧
    c'.rows.head? = some y ∧ IsTransposed a b x y

theorem erase_insert {β : Type} (t : List β) (i : Nat) (c : β) (h : i < t.length) : (t.eraseIdx i).insertIdx i c = t.set i c := by
  induction t generalizing i with
  | nil => simp at h
  | cons x t ih =>
    cases i with
    | zero => simp
    | succ i =>
      simp only [List.eraseIdx_cons_succ, List.insertIdx_succ_cons, List.set_cons_succ, List.cons.injEq, true_and]
      exact ih i (by simpa using h)

theorem vec_transpose (a b : Nat) (x : List α) (h : x.length = a * b) :
    ∃ v, Core.Vec.transpose ⟨x, [b, a]⟩ = .ok v ∧ IsTransposed a b x v.data := by
  obtain ⟨v, h1, h2, h3, h4, _⟩ := Core.Vec.C12_transpose (⟨x, [b, a]⟩ : Core.Vec α) b a rfl (by simpa [Nat.mul_comm] using h)
  refine ⟨v, h1, h, by simpa [h2] using h3, ?_⟩
  intro i j hi hj
  have := h4 j i hj hi
  simpa [h2, Index.rowMajor] using this

theorem transposeCol_ok (zero : α) {t : List (Col α)} {n : Str} {i : Nat} (hi : i < t.length) (h : colNum t n = some i) (hw : Whole2 t[i]) :
    ∃ c', transposeCol zero t n = .ok (t.set i c') ∧ TransposedCol t[i] c' := by
  obtain ⟨_, hn⟩ := colNum_some h
  obtain ⟨a, b, x, xs, h1, h2, h3⟩ := hw
  obtain ⟨v, h4, h5⟩ := vec_transpose a b x h3
  refine ⟨⟨n, [b, a], v.data :: xs.map fun r => List.replicate r.length zero⟩, ?_, hn.symm, by simp [h2], a, b, x, v.data, h1, rfl, by simp [h2], rfl, h5⟩
  unfold transposeCol
  rw [h]
  dsimp only
  rw [Res.rd_lt hi, Res.ok_bind, h1, h2]
  dsimp only
  rw [h4, Res.ok_bind, erase_insert _ _ _ hi]

theorem name_inj {t : List (Col α)} (hd : (t.map Col.name).Nodup) {i j : Nat} {c c' : Col α} (hi : t[i]? = some c) (hj : t[j]? = some c')
    (h : c.name = c'.name) : i = j := by
  obtain ⟨hi', _⟩ := List.getElem?_eq_some_iff.1 hi
  apply (List.getElem?_inj (l := t.map Col.name) (by simpa using hi') hd).1
  simp [hi, hj, h]

theorem transposeFold (zero : α) (names : List Str) (hn : names.Nodup) (t : List (Col α)) (hd : (t.map Col.name).Nodup)
    (hw : ∀ n ∈ names, ∃ c ∈ t, c.name = n ∧ Whole2 c) :
    ∃ t', names.foldlM (transposeCol zero) t = .ok t' ∧ t'.map Col.name = t.map Col.name ∧
      ∀ (i : Nat) c c', t[i]? = some c → t'[i]? = some c' → (c.name ∉ names → c' = c) ∧ (c.name ∈ names → TransposedCol c c') := by
  induction names generalizing t with
  | nil =>
    refine ⟨t, rfl, rfl, fun i c c' h1 h2 => ⟨fun _ => ?_, fun h => by simp at h⟩⟩
    rw [h1] at h2; exact (Option.some.inj h2).symm
  | cons n names ih =>
    rw [List.nodup_cons] at hn
    obtain ⟨c0, hc0, hcn, hcw⟩ := hw n (by simp)
    cases hi : colNum t n with
    | none => exact absurd (List.mem_map.2 ⟨c0, hc0, hcn⟩) (colNum_none.1 hi)
    | some i =>
      obtain ⟨hil, hin⟩ := colNum_some hi
      have hci : t[i] = c0 := by
        obtain ⟨j, hj, hjc⟩ := List.getElem_of_mem hc0
        have := name_inj hd (List.getElem?_eq_getElem hil) (List.getElem?_eq_getElem hj) (by rw [hin, hjc, hcn])
        subst this; exact hjc
      obtain ⟨c1, h1, h2⟩ := transposeCol_ok zero hil hi (hci ▸ hcw)
      rw [List.foldlM_cons, h1, Res.ok_bind]
      have hnames : (t.set i c1).map Col.name = t.map Col.name := by
        rw [List.map_set, h2.1]
        rw [show (t[i]).name = (t.map Col.name)[i]'(by simpa using hil) by simp, List.set_getElem_self]
      obtain ⟨t', h3, h4, h5⟩ := ih hn.2 (t.set i c1) (by rw [hnames]; exact hd) (by
        intro m hm
        obtain ⟨c, hc, hcm, hcw'⟩ := hw m (by simp [hm])
        refine ⟨c, ?_, hcm, hcw'⟩
        obtain ⟨j, hj, hjc⟩ := List.getElem_of_mem hc
        have hne : i ≠ j := by
          rintro rfl
          exact hn.1 (by rw [← hin, hjc, hcm]; exact hm)
        rw [List.mem_iff_getElem]
        exact ⟨j, by simpa using hj, by rw [List.getElem_set_ne hne]; exact hjc⟩)
      refine ⟨t', h3, by rw [h4, hnames], fun j c c' hc hc' => ?_⟩
      by_cases hij : i = j
      · subst hij
        have hce : t[i] = c := by rw [List.getElem?_eq_getElem hil] at hc; exact Option.some.inj hc
        have hset : (t.set i c1)[i]? = some c1 := by simp [hil]
        have h6 := h5 i c1 c' hset hc'
        have hc1 : c1.name = n := by rw [h2.1, hin]
        have : c' = c1 := h6.1 (by rw [hc1]; exact hn.1)
        subst this
        refine ⟨fun h => absurd (by rw [← hce, hin]; simp) h, fun _ => hce ▸ h2⟩
      · have hset : (t.set i c1)[j]? = some c := by rw [List.getElem?_set_ne hij]; exact hc
        have h6 := h5 j c c' hset hc'
        have hcn' : c.name ≠ n := by
          intro h
          exact hij (name_inj hd (List.getElem?_eq_getElem hil) hc (by rw [hin, h]))
        simpa [hcn'] using h6

/-! ### C185 -/

/-- `transpose` replaces the columns with these names by columns whose cells are transposed, for the first row; the names, the order and all the other columns
stay. Each column must be asked for once, and have two-dimensional cells. -/
theorem C185_partial (zero : α) (t : List (Col α)) (cols lines : List Str) (hd : (t.map Col.name).Nodup) (hn : (upNames cols).Nodup)
    (hw : ∀ c ∈ t, c.name ∈ upNames cols → Whole2 c) :
    ∃ t', transposeColumns zero t cols true lines = .ok t' ∧ t'.map Col.name = t.map Col.name ∧
      ∀ (i : Nat) c c', t[i]? = some c → t'[i]? = some c' → (c.name ∉ upNames cols → c' = c) ∧ (c.name ∈ upNames cols → TransposedCol c c') := by
  obtain ⟨t', h1, h2, h3⟩ := transposeFold zero (known t (upNames cols)) (hn.sublist List.filter_sublist) t hd (by
    intro n h
    simp only [known, List.mem_filter, decide_eq_true_eq, List.mem_map] at h
    obtain ⟨h, c, hc, rfl⟩ := h
    exact ⟨c, hc, rfl, hw c hc h⟩)
  refine ⟨t', ?_, h2, ?_⟩
  · unfold transposeColumns
    by_cases hc : cols = []
    · subst hc; rw [if_pos rfl, ← h1]; rfl
    · rw [if_neg hc, getColumns_force, Res.ok_bind]
      exact h1
  · intro i c c' hc hc'
    have := h3 i c c' hc hc'
    have hm : c.name ∈ t.map Col.name := List.mem_map.2 ⟨c, List.mem_of_getElem? hc, rfl⟩
    have hk : c.name ∈ known t (upNames cols) ↔ c.name ∈ upNames cols := by
      simp only [known, List.mem_filter, decide_eq_true_eq, hm, and_true]
    rw [hk] at this
    exact this

/-- Transposing twice gives the first table back, when it has one row. -/
theorem C185_twice_partial (zero : α) (t : List (Col α)) (cols lines lines' : List Str) (hd : (t.map Col.name).Nodup) (hn : (upNames cols).Nodup)
    (hw : ∀ c ∈ t, c.name ∈ upNames cols → Whole2 c) (h1 : ∀ c ∈ t, c.rows.length = 1) :
    (transposeColumns zero t cols true lines >>= fun t' => transposeColumns zero t' cols true lines') = .ok t := by
  obtain ⟨t', e1, e2, e3⟩ := C185_partial zero t cols lines hd hn hw
  have hlen : t'.length = t.length := by simpa using congrArg List.length e2
  obtain ⟨t'', f1, f2, f3⟩ := C185_partial zero t' cols lines' (by rw [e2]; exact hd) hn (by
    intro c' hc' hm
    obtain ⟨i, hi, rfl⟩ := List.getElem_of_mem hc'
    have hi' : i < t.length := hlen ▸ hi
    have e := e3 i t[i] t'[i] (List.getElem?_eq_getElem hi') (List.getElem?_eq_getElem hi)
    have hname : t'[i].name = t[i].name := by
      have := congrArg (fun l => l[i]?) e2
      simpa [hi, hi'] using this
    obtain ⟨_, h4, a, b, x, y, h5, h6, h7, h8, h9⟩ := e.2 (hname ▸ hm)
    cases hr : t'[i].rows with
    | nil => rw [hr] at h8; cases h8
    | cons z zs =>
      rw [hr] at h8
      obtain rfl : z = y := by simpa using h8
      exact ⟨b, a, z, zs, h6, hr, by rw [h9.2.1, Nat.mul_comm]⟩)
  rw [e1, Res.ok_bind, f1]
  congr 1
  have hlen2 : t''.length = t'.length := by simpa using congrArg List.length f2
  apply List.ext_getElem (by omega)
  intro i hi'' hi
  have hi' : i < t'.length := by omega
  have e := e3 i t[i] t'[i] (List.getElem?_eq_getElem hi) (List.getElem?_eq_getElem hi')
  have f := f3 i t'[i] t''[i] (List.getElem?_eq_getElem hi') (List.getElem?_eq_getElem hi'')
  have hname : t'[i].name = t[i].name := by
    have := congrArg (fun l => l[i]?) e2
    simpa [hi, hi'] using this
  by_cases hm : t[i].name ∈ upNames cols
  · obtain ⟨n1, l1, a, b, x, y, h5, h6, h7, h8, h9⟩ := e.2 hm
    obtain ⟨n2, l2, a', b', y', z, k5, k6, k7, k8, k9⟩ := f.2 (hname ▸ hm)
    rw [h6] at k5
    simp only [List.cons.injEq, and_true] at k5
    obtain ⟨rfl, rfl⟩ := k5
    rw [h8] at k7
    obtain rfl := Option.some.inj k7
    have hxz : z = x := by
      obtain ⟨q1, q2, q3⟩ := h9
      obtain ⟨r1, r2, r3⟩ := k9
      apply List.ext_getElem?
      intro k
      by_cases hk : k < x.length
      · rw [q1] at hk
        have hb : 0 < a := by rcases Nat.eq_zero_or_pos a with h | h; · subst h; omega
                              · exact h
        have s1 : k % a < a := Nat.mod_lt _ hb
        have s2 : k / a < b := (Nat.div_lt_iff_lt_mul hb).2 (by rw [Nat.mul_comm]; exact hk)
        have s3 : k / a * a + k % a = k := by rw [Nat.mul_comm]; exact Nat.div_add_mod k a
        have t1 := r3 (k / a) (k % a) s2 s1
        have t2 := q3 (k % a) (k / a) s1 s2
        rw [s3] at t1 t2
        rw [t1, t2]
      · have hz : z.length = x.length := by rw [r2, q1, Nat.mul_comm]
        rw [List.getElem?_eq_none (by omega), List.getElem?_eq_none (by omega)]
    subst hxz
    have hl := h1 t[i] (List.getElem_mem _)
    have single : ∀ (l : List (List α)) w, l.length = 1 → l.head? = some w → l = [w] := by
      intro l w hl hh
      match l, hl with
      | [v], _ => simp at hh; rw [hh]
    have r1 := single _ _ hl h7
    have r2 := single _ _ (by omega) k8
    have : ∀ c d : Col α, c.name = d.name → c.naxes = d.naxes → c.rows = d.rows → c = d := by
      rintro ⟨_, _, _⟩ ⟨_, _, _⟩ rfl rfl rfl; rfl
    exact this _ _ (by rw [n2, n1]) (by rw [k6, h5]) (by rw [r1, r2])
  · have a1 := e.1 hm
    have a2 := f.1 (hname ▸ hm)
    rw [a2, a1]

/-- The help says that no data is lost, but all the rows but the first are replaced by zeros. -/
theorem C185_rows_refuted : transposeColumns 0 [⟨"A".toList, [2, 1], [[1, 2], [3, 4]]⟩] ["a".toList] true [] =
    .ok [⟨"A".toList, [1, 2], [[1, 2], [0, 0]]⟩] := by decide +kernel

/-- A column that is asked for twice is transposed twice. -/
theorem C185_repeat_refuted : transposeColumns 0 [⟨"A".toList, [2, 3], [[1, 2, 3, 4, 5, 6]]⟩] ["a".toList, "A".toList] true [] =
    .ok [⟨"A".toList, [2, 3], [[1, 2, 3, 4, 5, 6]]⟩] := by decide +kernel

example : transposeColumns 0 [⟨"B".toList, [1], [[9]]⟩, ⟨"A".toList, [2, 3], [[1, 2, 3, 4, 5, 6]]⟩] ["a".toList] true [] =
    .ok [⟨"B".toList, [1], [[9]]⟩, ⟨"A".toList, [3, 2], [[1, 3, 5, 2, 4, 6]]⟩] := by decide +kernel
example : Whole2 (⟨"A".toList, [2, 3], [[1, 2, 3, 4, 5, 6]]⟩ : Col Nat) := ⟨2, 3, _, [], rfl, rfl, rfl⟩

end Verif.Fitstool
