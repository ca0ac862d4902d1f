import Verif.Basic
/-!
# The list of the columns of a FITS table (C251)

`read_columns_info` describes each column of a table: its number, its name and the type of its elements. The dimensions are in `FitsTable`.
-/
namespace Verif.ColsInfo
open Verif

/-! ### Model -/

/-- a column in the file: the name after `trim` if there is a keyword `TTYPE`, the letter of the type, the number of elements of a row, and the bytes of the first row if there is one -/
structure Raw where
  name : Option (List Char)
  code : Char
  count : Nat
  row : Option (List Nat)
deriving DecidableEq

/-- `column_info::type_t` (`table.hpp:129-131`) -/
inductive Kind
  | string | boolean | byte | integer | floatSimple | floatDouble
deriving DecidableEq

/-- `column_info` (`table.hpp:126-135`) without the dimensions -/
structure Info where
  id : Nat
  name : List Char
  kind : Kind
deriving DecidableEq

/-- the type of a column of bytes (`table.hpp:181-198`): CFITSIO cannot read a row that is not there, which throws; `min` of no element is an error -/
def byteKind (c : Raw) : Res Kind :=
  if c.count = 0 then .abort
  else match c.row with
  | none => .abort
  | some l => .ok (if 0 ∈ l ∧ ∀ x ∈ l, x ≤ 1 then .boolean else .byte)

/-- `read_column_info_` (`table.hpp:153-269`); `none` is `false` -/
def columnInfo (id : Nat) (c : Raw) : Res (Option Info) :=
  match c.name with
  | none => .ok none
  | some n =>
    match c.code with
    | 'A' => .ok (some ⟨id, n, .string⟩)
    | 'B' => do
      let k ← byteKind c
      .ok (some ⟨id, n, k⟩)
    | 'S' => .ok (some ⟨id, n, .byte⟩)
    | 'K' => .ok (some ⟨id, n, .integer⟩)
    | 'J' => .ok (some ⟨id, n, .integer⟩)
    | 'I' => .ok (some ⟨id, n, .integer⟩)
    | 'V' => .ok (some ⟨id, n, .integer⟩)
    | 'U' => .ok (some ⟨id, n, .integer⟩)
    | 'E' => .ok (some ⟨id, n, .floatSimple⟩)
    | 'D' => .ok (some ⟨id, n, .floatDouble⟩)
    | _ => .ok none

/-- the loop of `read_columns_info` (`table.hpp:297-302`): the columns from number `id` -/
def infoFrom (id : Nat) : List Raw → Res (List Info)
  | [] => .ok []
  | c :: cs => do
    let o ← columnInfo id c
    let l ← infoFrom (id + 1) cs
    .ok (match o with | some i => i :: l | none => l)

/-- `read_columns_info` (`table.hpp:288-305`) -/
def columnsInfo (cs : List Raw) : Res (List Info) := infoFrom 1 cs

/-! ### Specification -/

/-- the types of the FITS standard that are listed, apart from bytes -/
def Listed : List (Char × Kind) :=
  [('A', .string), ('S', .byte), ('K', .integer), ('J', .integer), ('I', .integer), ('V', .integer), ('U', .integer), ('E', .floatSimple), ('D', .floatDouble)]

/-- the column has this type; bytes are booleans if the first row has only zeros and ones, and a zero -/
def HasKind (c : Raw) (k : Kind) : Prop :=
  (c.code, k) ∈ Listed ∨
  (c.code = 'B' ∧ c.count ≠ 0 ∧ ∃ l, c.row = some l ∧ ((k = .boolean ∧ 0 ∈ l ∧ ∀ x ∈ l, x ≤ 1) ∨ (k = .byte ∧ ¬ (0 ∈ l ∧ ∀ x ∈ l, x ≤ 1))))

/-- the list describes the columns, one by one, with their numbers -/
def Describes (cs : List Raw) (l : List Info) : Prop :=
  l.length = cs.length ∧ ∀ (i : Nat) (c : Raw) (x : Info), cs[i]? = some c → l[i]? = some x → x.id = i + 1 ∧ c.name = some x.name ∧ HasKind c x.kind

/-! ### Helpers -/

theorem columnInfo_kind {id : Nat} {c : Raw} {n : List Char} {k : Kind} (hn : c.name = some n) (hk : HasKind c k) : columnInfo id c = .ok (some ⟨id, n, k⟩) := by
  unfold columnInfo
  rw [hn]
  rcases hk with h | ⟨hb, h0, l, hl, h⟩
  · simp only [Listed, List.mem_cons, Prod.mk.injEq, List.not_mem_nil, or_false] at h
    rcases h with ⟨h, rfl⟩ | ⟨h, rfl⟩ | ⟨h, rfl⟩ | ⟨h, rfl⟩ | ⟨h, rfl⟩ | ⟨h, rfl⟩ | ⟨h, rfl⟩ | ⟨h, rfl⟩ | ⟨h, rfl⟩ <;> rw [h] <;> rfl
  · rw [hb]
    have : byteKind c = .ok k := by
      unfold byteKind
      rw [if_neg h0, hl]
      rcases h with ⟨rfl, h⟩ | ⟨rfl, h⟩
      · simp only [if_pos h]
      · simp only [if_neg h]
    simp only [this, Res.ok_bind]

/-- what is listed is a column of the file -/
theorem columnInfo_some {id : Nat} {c : Raw} {x : Info} (h : columnInfo id c = .ok (some x)) : x.id = id ∧ c.name = some x.name ∧ HasKind c x.kind := by
  unfold columnInfo at h
  split at h
  · cases h
  · rename_i n hn
    split at h
    case h_2 =>
      rename_i hc
      obtain ⟨k, hk, h⟩ := Res.bind_eq_ok.1 h
      cases h
      refine ⟨rfl, hn, .inr ⟨hc, ?_⟩⟩
      unfold byteKind at hk
      split at hk
      · cases hk
      · rename_i h0
        split at hk
        · cases hk
        · rename_i l hl
          refine ⟨h0, l, hl, ?_⟩
          cases hk
          by_cases hb : 0 ∈ l ∧ ∀ x ∈ l, x ≤ 1
          · exact .inl ⟨if_pos hb, hb⟩
          · exact .inr ⟨if_neg hb, hb⟩
    case h_11 => cases h
    all_goals
      rename_i hc
      cases h
      exact ⟨rfl, hn, .inl (by rw [hc]; simp [Listed])⟩

theorem infoFrom_ok (cs : List Raw) (id : Nat) (h : ∀ c ∈ cs, (∃ n, c.name = some n) ∧ ∃ k, HasKind c k) :
    ∃ l, infoFrom id cs = .ok l ∧ l.length = cs.length ∧
      ∀ (i : Nat) (c : Raw) (x : Info), cs[i]? = some c → l[i]? = some x → x.id = id + i ∧ c.name = some x.name ∧ HasKind c x.kind := by
  induction cs generalizing id with
  | nil => exact ⟨[], rfl, rfl, by simp⟩
  | cons c cs ih =>
    obtain ⟨⟨n, hn⟩, k, hk⟩ := h c (by simp)
    obtain ⟨l, h1, h2, h3⟩ := ih (id + 1) fun d hd => h d (by simp [hd])
    refine ⟨⟨id, n, k⟩ :: l, ?_, by simp [h2], fun i d x hd hx => ?_⟩
    · unfold infoFrom
      rw [columnInfo_kind hn hk, Res.ok_bind, h1, Res.ok_bind]
    · cases i with
      | zero =>
        simp only [List.getElem?_cons_zero, Option.some.injEq] at hd hx
        subst hd hx
        exact ⟨rfl, hn, hk⟩
      | succ i =>
        simp only [List.getElem?_cons_succ] at hd hx
        obtain ⟨a, b⟩ := h3 i d x hd hx
        exact ⟨by omega, b⟩

theorem infoFrom_sound (cs : List Raw) (id : Nat) (l : List Info) (h : infoFrom id cs = .ok l) :
    l.Pairwise (fun x y => x.id < y.id) ∧ ∀ x ∈ l, id ≤ x.id ∧ ∃ c, cs[x.id - id]? = some c ∧ c.name = some x.name ∧ HasKind c x.kind := by
  induction cs generalizing id l with
  | nil => cases h; exact ⟨.nil, by simp⟩
  | cons c cs ih =>
    unfold infoFrom at h
    obtain ⟨o, h1, h⟩ := Res.bind_eq_ok.1 h
    obtain ⟨t, h2, h⟩ := Res.bind_eq_ok.1 h
    obtain ⟨p, q⟩ := ih (id + 1) t h2
    have q' : ∀ x ∈ t, id + 1 ≤ x.id ∧ ∃ d, (c :: cs)[x.id - id]? = some d ∧ d.name = some x.name ∧ HasKind d x.kind := fun x hx => by
      obtain ⟨a, d, hd, b⟩ := q x hx
      refine ⟨a, d, ?_, b⟩
      rw [show x.id - id = (x.id - (id + 1)) + 1 by omega, List.getElem?_cons_succ, hd]
    cases o with
    | none =>
      cases h
      exact ⟨p, fun x hx => ⟨by have := (q' x hx).1; omega, (q' x hx).2⟩⟩
    | some i =>
      cases h
      obtain ⟨e1, e2, e3⟩ := columnInfo_some h1
      refine ⟨List.pairwise_cons.2 ⟨fun y hy => by have := (q' y hy).1; omega, p⟩, fun x hx => ?_⟩
      rcases List.mem_cons.1 hx with rfl | hx
      · exact ⟨by omega, c, by simp [e1], e2, e3⟩
      · exact ⟨by have := (q' x hx).1; omega, (q' x hx).2⟩

/-! ### C251 -/

/-- C251 (partial): if all columns have a name and one of the types that are known, and columns of bytes have a row that is not empty, then all columns are listed in order, with their numbers, names and types. -/
theorem C251_all_partial (cs : List Raw) (h : ∀ c ∈ cs, (∃ n, c.name = some n) ∧ ∃ k, HasKind c k) : ∃ l, columnsInfo cs = .ok l ∧ Describes cs l := by
  obtain ⟨l, h1, h2, h3⟩ := infoFrom_ok cs 1 h
  refine ⟨l, h1, h2, fun i c x hc hx => ?_⟩
  obtain ⟨a, b⟩ := h3 i c x hc hx
  exact ⟨by omega, b⟩

/-- C251: whatever the table, each entry of the list describes the column of the file with its number, and the numbers increase. -/
theorem C251_sound (cs : List Raw) (l : List Info) (h : columnsInfo cs = .ok l) :
    l.Pairwise (fun x y => x.id < y.id) ∧ ∀ x ∈ l, 1 ≤ x.id ∧ ∃ c, cs[x.id - 1]? = some c ∧ c.name = some x.name ∧ HasKind c x.kind :=
  infoFrom_sound cs 1 l h

/-- C251 fails: columns of logical values (`L`), complex numbers, bits and arrays of variable length are left out of the list. -/
theorem C251_logical_refuted (n : List Char) (k : Nat) (r : Option (List Nat)) (code : Char) (hc : code ∈ ['L', 'C', 'M', 'X', 'P', 'Q']) :
    columnsInfo [⟨some n, code, k, r⟩] = .ok [] := by
  simp only [List.mem_cons, List.not_mem_nil, or_false] at hc
  rcases hc with rfl | rfl | rfl | rfl | rfl | rfl <;> rfl

/-- C251 fails: the columns of a table without rows cannot be listed if one of them is of bytes. -/
theorem C251_norow_refuted (n m : List Char) (k : Nat) : columnsInfo [⟨some n, 'D', 1, none⟩, ⟨some m, 'B', k, none⟩] = .abort := by
  simp only [columnsInfo, infoFrom, columnInfo, byteKind]
  cases k with
  | zero => rfl
  | succ k => rfl

/-- a column of numbers and one of booleans -/
example : columnsInfo [⟨some ['r'], 'D', 1, none⟩, ⟨some ['b'], 'B', 3, some [0, 1, 0]⟩, ⟨some ['c'], 'B', 2, some [1, 7]⟩] =
    .ok [⟨1, ['r'], .floatDouble⟩, ⟨2, ['b'], .boolean⟩, ⟨3, ['c'], .byte⟩] := by decide +kernel

example : HasKind ⟨some ['b'], 'B', 3, some [0, 1, 0]⟩ .boolean := .inr ⟨rfl, by decide, _, rfl, .inl ⟨rfl, by decide⟩⟩

end Verif.ColsInfo
