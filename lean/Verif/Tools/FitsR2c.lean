import Verif.Str.ConvProps
/-!
# Row-oriented tables to column-oriented tables: `fitstool r2c` (C232) (`tools/fitstool/fitstool.cpp:308-455`)

Simplified: the errors of cfitsio (files that cannot be opened, ...) are not modelled. Of cfitsio, the following is used: `fits_read_col` reads
the values of a column row after row, stores them in memory with the size of its type (`long` and `unsigned long` have 8 bytes), and expects an
array of pointers for the type of strings; `fits_get_eqcoltype` gives the width of the values in the file, and the unsigned type for a column
of integers with the offset (`TZERO`) of the unsigned integers. The names are below 80 characters.
-/
namespace Verif.FitsR2c
open Verif Verif.Str Verif.Io Verif.StrConv

/-! ### Model -/

/-- a column of a table in a file: `TTYPE`, `TFORM` (without blanks around), whether its `TZERO` is that of the unsigned integers, its `TDIM` if any,
and its values, row by row. A string is given by its characters. -/
structure Col (E : Type) where
  name : Str
  form : Str
  uns : Bool
  dim : Option Str
  rows : List (List E)
deriving DecidableEq

/-- the letter of a `TFORM` (fitstool.cpp:394) -/
def letter (form : Str) : Char := form.getLastD ' '

/-- bytes per value in the file, the `width` of `fits_get_eqcoltype` -/
def diskBytes : Char → Nat
  | 'I' => 2
  | 'J' => 4
  | 'E' => 4
  | 'K' => 8
  | 'D' => 8
  | 'C' => 8
  | 'M' => 16
  | _ => 1

/-- bytes per value in memory, as written by `fits_read_col` for the type of the column: 8 for `TLONG` and `TULONG` -/
def memBytes : Char → Nat
  | 'J' => 8
  | c => diskBytes c

/-- `width` after fitstool.cpp:359-363: `TINT32BIT` is the signed type only -/
def width (c : Char) (uns : Bool) : Nat := if c = 'J' ∧ uns = false then diskBytes c * 2 else diskBytes c

/-- `nelem` (fitstool.cpp:381-392): the result of `erase_end` is not used and that of `from_string` is not tested -/
def nelem (form : Str) : Int := if form.length = 1 then 1 else (fromString (intReader ⟨true, 64⟩) noFallback form 1).2

/-- `to_string` of a `long` -/
abbrev num (n : Int) : Str := intToString n

/-- `tform` and `tdim` (fitstool.cpp:383-402) -/
def forms (nrow : Int) (form : Str) : Str × Str :=
  if form.length = 1 then (num nrow ++ form, "(".toList ++ num nrow ++ ")".toList)
  else
    let n := nelem form
    (if letter form = 'A' then num (nrow * n) ++ ['A'] ++ num n else num (nrow * n) ++ [letter form],
     "(".toList ++ num n ++ ",".toList ++ num nrow ++ ")".toList)

/-- one column (fitstool.cpp:353-440) -/
def column {E : Type} (nrow : Nat) (c : Col E) : Res (Col E) :=
  let f := forms nrow c.form
  let out : Col E := ⟨c.name, f.1, c.uns, some f.2, [c.rows.flatten]⟩
  if c.form.length ≠ 1 ∧ letter c.form = 'A' then .ok out
  -- `fits_read_col` for strings takes the characters for pointers
  else if letter c.form = 'A' then if nrow = 0 then .ok out else .ub
  -- the values are written past the end of the buffer
  else if width (letter c.form) c.uns * c.rows.flatten.length < memBytes (letter c.form) * c.rows.flatten.length then .ub
  else .ok out

/-- what the program does: it stops with a message, or writes a file -/
inductive Done (E : Type) where
  | error (ret : Bool)
  | wrote (path : Str) (cols : List (Col E))
deriving DecidableEq

/-- `rows_to_columns` (fitstool.cpp:308-455) of the table with `nrow` rows in `file`: the name of the created file is the text after the `!` -/
def rowsToColumns {E : Type} (file out : Str) (nrow : Nat) (cols : List (Col E)) : Res (Done E) :=
  if out = file then .ok (.error false)
  else
    let out' := if ['!'] <+: out then out else ['!'] ++ out
    if nrow = 1 then .ok (.error true)
    else do
      let cs ← cols.mapM (column nrow)
      .ok (.wrote (out'.drop 1) cs)

/-! ### Specification -/

/-- the columns of a table with `nrow` rows, with `n` values per row: the letter alone, or the number before the letter -/
structure IsCol {E : Type} (nrow n : Nat) (l : Char) (c : Col E) : Prop where
  form : (n = 1 ∧ c.form = [l]) ∨ c.form = dec n ++ [l]
  nrow : c.rows.length = nrow
  len : ∀ r ∈ c.rows, r.length = n
  letter : l.isDigit = false

/-- the columns that are converted: no single letter `A`, no unsigned 32-bit integers; number of values in the range of `long` -/
def Plain {E : Type} (nrow n : Nat) (l : Char) (c : Col E) : Prop :=
  IsCol nrow n l c ∧ c.form ≠ ['A'] ∧ ¬ (l = 'J' ∧ c.uns = true) ∧ (n : Int) < 2 ^ 63

/-- the converted column: one row with all the values, those of row `i` from position `i * n`; `TFORM` gives their number (and for strings, the size
of each), and `TDIM` the number of values per row, except for a letter alone, and the number of rows -/
structure IsConv {E : Type} (nrow n : Nat) (l : Char) (c d : Col E) : Prop where
  name : d.name = c.name
  uns : d.uns = c.uns
  one : ∃ r, d.rows = [r] ∧ r.length = nrow * n ∧ ∀ i < nrow, ∀ k < n, r[i * n + k]? = (c.rows[i]?).bind (·[k]?)
  form : d.form = if l = 'A' then dec (nrow * n) ++ ['A'] ++ dec n else dec (nrow * n) ++ [l]
  dim : d.dim = some (if c.form = [l] then "(".toList ++ dec nrow ++ ")".toList else "(".toList ++ dec n ++ ",".toList ++ dec nrow ++ ")".toList)

/-! ### Helpers -/

theorem num_nat (n : Nat) : num (n : Int) = dec n := by
  show Sex.decInt n = dec n
  unfold Sex.decInt
  rw [if_neg (by omega)]
  simp

theorem dec_ne_nil (n : Nat) : dec n ≠ [] := Nat.toDigits_ne_nil

theorem takeWhile_stop {d : Str} {l : Char} (hd : Digits d) (hl : l.isDigit = false) : (d ++ [l]).takeWhile Char.isDigit = d ∧ (d ++ [l]).dropWhile Char.isDigit = [l] := by
  induction d with
  | nil => simp [hl]
  | cons c d ih =>
    have hc := hd c List.mem_cons_self
    have := ih fun x hx => hd x (List.mem_cons_of_mem _ hx)
    simp [hc, this.1, this.2]

theorem digit_nosp {c : Char} (h : c.isDigit = true) : Sex.isSp c = false := by
  cases hs : Sex.isSp c with
  | false => rfl
  | true =>
    exfalso
    simp only [Sex.isSp] at hs
    simp only [Char.isDigit, Bool.and_eq_true, decide_eq_true_eq] at h
    simp at hs
    rcases hs with ((((hs | hs) | hs) | hs) | hs) | hs <;> subst hs <;> revert h <;> decide

theorem nelem_of {n : Nat} {l : Char} {form : Str} (h : (n = 1 ∧ form = [l]) ∨ form = dec n ++ [l]) (hl : l.isDigit = false) (hn : (n : Int) < 2 ^ 63) : nelem form = n := by
  rcases h with ⟨h1, h2⟩ | h
  · subst h1 h2
    rfl
  · have hd : Digits (dec n) := digits_dec n
    have hne : dec n ≠ [] := dec_ne_nil n
    subst h
    unfold nelem
    rw [if_neg (by have := List.length_pos_iff.mpr hne; simp; exact hne)]
    obtain ⟨c, u, hc⟩ := List.exists_cons_of_ne_nil hne
    have hcd := hd c (by rw [hc]; exact List.mem_cons_self)
    have he : extract (intReader ⟨true, 64⟩) (dec n ++ [l]) 1 = ((n : Int), false, [l]) := by
      have e1 : (dec n ++ [l]).dropWhile Sex.isSp = dec n ++ [l] := by rw [hc, List.cons_append, List.dropWhile_cons_of_neg (by rw [digit_nosp hcd]; decide)]
      have e2 : sign (dec n ++ [l]) = (false, dec n ++ [l]) := by rw [hc, List.cons_append, sign_digit hcd]
      unfold extract
      dsimp only
      rw [e1, if_neg (by simp)]
      unfold intReader
      dsimp only
      rw [e2]
      dsimp only
      rw [(takeWhile_stop hd hl).1, (takeWhile_stop hd hl).2, if_neg hne, if_pos rfl]
      have hv : Nat.ofDigitChars 10 (dec n) 0 = n := val_dec n
      rw [hv]
      simp only [Bool.false_eq_true, if_false]
      rw [if_neg, if_neg]
      · simp only [IntTy.hi, if_true]; omega
      · simp only [IntTy.lo, if_true]; omega
    exact ((fromString_eq _ _ _ _).1 _ _ he).2

theorem flatten_at {E : Type} {n : Nat} : ∀ (rows : List (List E)), (∀ r ∈ rows, r.length = n) → rows.flatten.length = rows.length * n ∧
    ∀ i < rows.length, ∀ k < n, rows.flatten[i * n + k]? = (rows[i]?).bind (·[k]?)
  | [], _ => by simp
  | r :: rs, h => by
    obtain ⟨h1, h2⟩ := flatten_at rs fun x hx => h x (List.mem_cons_of_mem _ hx)
    have hr := h r List.mem_cons_self
    constructor
    · rw [List.flatten_cons, List.length_append, h1, hr, List.length_cons, Nat.succ_mul, Nat.add_comm]
    · intro i hi k hk
      rw [List.flatten_cons]
      cases i with
      | zero => rw [Nat.zero_mul, Nat.zero_add, List.getElem?_append_left (by omega)]; rfl
      | succ i =>
        rw [List.getElem?_append_right (by rw [hr, Nat.succ_mul]; omega), hr, show (i + 1) * n + k - n = i * n + k by rw [Nat.succ_mul]; omega]
        exact h2 i (by simpa using hi) k hk

theorem column_ok {E : Type} {nrow n : Nat} {l : Char} {c : Col E} (h : Plain nrow n l c) : ∃ d, column nrow c = .ok d ∧ IsConv nrow n l c d := by
  obtain ⟨hc, hA, hJ, hn⟩ := h
  have hnel := nelem_of hc.form hc.letter hn
  have hlet : letter c.form = l := by
    rcases hc.form with ⟨_, e⟩ | e
    · rw [e]; rfl
    · rw [e]; simp [letter]
  obtain ⟨f1, f2⟩ := flatten_at c.rows hc.len
  rw [hc.nrow] at f1 f2
  have hone : c.form.length = 1 ↔ c.form = [l] := by
    constructor
    · intro h
      rcases hc.form with ⟨_, e⟩ | e
      · exact e
      · rw [e] at h
        have := List.length_pos_iff.mpr (dec_ne_nil n)
        simp at h
        exact absurd h (dec_ne_nil n)
    · intro h; rw [h]; rfl
  have hn1 : c.form = [l] → n = 1 := by
    intro h
    rcases hc.form with ⟨e, _⟩ | e
    · exact e
    · rw [h] at e
      have := congrArg List.length e
      simp at this
      exact absurd this (dec_ne_nil n)
  refine ⟨⟨c.name, (forms nrow c.form).1, c.uns, some (forms nrow c.form).2, [c.rows.flatten]⟩, ?_, ⟨rfl, rfl, ⟨_, rfl, f1, f2⟩, ?_, ?_⟩⟩
  · unfold column
    dsimp only
    by_cases h1 : c.form.length ≠ 1 ∧ letter c.form = 'A'
    · rw [if_pos h1]
    · rw [if_neg h1, if_neg, if_neg]
      · rw [hlet]
        refine Nat.not_lt.mpr (Nat.mul_le_mul_right _ ?_)
        unfold width memBytes
        by_cases h2 : l = 'J'
        · subst h2
          rw [if_pos ⟨rfl, by simpa using hJ⟩]
          decide
        · rw [if_neg (fun h => h2 h.1)]
          split
          · exact absurd rfl h2
          · exact Nat.le_refl _
      · intro h2
        refine hA ?_
        have : c.form.length = 1 := by
          by_contra h3
          exact h1 ⟨h3, h2⟩
        rw [hone.mp this, ← hlet, h2]
  · show (forms nrow c.form).1 = _
    unfold forms
    by_cases h1 : c.form = [l]
    · have := hn1 h1
      rw [if_pos (hone.mpr h1), num_nat, if_neg (fun h2 => hA (by rw [h1, h2])), this, h1, Nat.mul_one]
    · rw [if_neg (fun h => h1 (hone.mp h))]
      dsimp only
      rw [hlet, hnel, num_nat, show ((nrow : Int) * (n : Int)) = ((nrow * n : Nat) : Int) by push_cast; rfl, num_nat]
  · show some (forms nrow c.form).2 = _
    unfold forms
    by_cases h1 : c.form = [l]
    · rw [if_pos (hone.mpr h1), if_pos h1, num_nat]
    · rw [if_neg (fun h => h1 (hone.mp h)), if_neg h1]
      dsimp only
      rw [hnel, num_nat, num_nat]

/-! ### C232 -/

/-- **C232** for columns that are not of single characters nor of unsigned 32-bit integers: the output file has the same columns, in order, each with
all its values in one row. -/
theorem C232_columns_partial {E : Type} {file out : Str} {nrow : Nat} {cols : List (Col E)} (hout : out ≠ file) (hrow : nrow ≠ 1)
    (hcols : ∀ c ∈ cols, ∃ n l, Plain nrow n l c) :
    ∃ path ds, rowsToColumns file out nrow cols = .ok (.wrote path ds) ∧ (¬ ['!'] <+: out → path = out) ∧ (∀ p, out = '!' :: p → path = p) ∧
      List.Forall₂ (fun c d => ∃ n l, IsConv nrow n l c d) cols ds := by
  have hm : ∀ cs : List (Col E), (∀ c ∈ cs, ∃ n l, Plain nrow n l c) → ∃ ds, cs.mapM (column nrow) = .ok ds ∧ List.Forall₂ (fun c d => ∃ n l, IsConv nrow n l c d) cs ds := by
    intro cs
    induction cs with
    | nil => intro _; exact ⟨[], rfl, .nil⟩
    | cons c cs ih =>
      intro h
      obtain ⟨n, l, hp⟩ := h c List.mem_cons_self
      obtain ⟨d, d1, d2⟩ := column_ok hp
      obtain ⟨ds, e1, e2⟩ := ih fun x hx => h x (List.mem_cons_of_mem _ hx)
      refine ⟨d :: ds, ?_, .cons ⟨n, l, d2⟩ e2⟩
      rw [List.mapM_cons, d1, Res.ok_bind, e1]
      rfl
  obtain ⟨ds, h1, h2⟩ := hm cols hcols
  unfold rowsToColumns
  rw [if_neg hout]
  dsimp only
  rw [if_neg hrow, h1, Res.ok_bind]
  refine ⟨_, ds, rfl, fun hb => ?_, fun p hp => ?_, h2⟩
  · rw [if_neg hb]
    rfl
  · rw [hp, if_pos ⟨p, rfl⟩]
    rfl

/-- **C232** fails for a column of single characters whose `TFORM` is `A`: undefined behaviour. -/
theorem C232_character_refuted {E : Type} {file out : Str} {nrow : Nat} {c : Col E} (cols : List (Col E)) (hout : out ≠ file) (hrow : 2 ≤ nrow) (h : IsCol nrow 1 'A' c) (hf : c.form = ['A']) :
    rowsToColumns file out nrow (c :: cols) = .ub := by
  unfold rowsToColumns
  rw [if_neg hout]
  dsimp only
  have hc : column nrow c = .ub := by
    unfold column
    dsimp only
    rw [hf, if_neg (by simp), if_pos (show letter ['A'] = 'A' from rfl), if_neg (by omega)]
  rw [if_neg (by omega), List.mapM_cons, hc]
  rfl

/-- **C232** fails for a column of unsigned 32-bit integers: the values are written past the end of the buffer. -/
theorem C232_unsigned_refuted {E : Type} {file out : Str} {nrow n : Nat} {c : Col E} (cols : List (Col E)) (hout : out ≠ file) (hrow : 2 ≤ nrow) (hn : 0 < n) (h : IsCol nrow n 'J' c) (hu : c.uns = true) :
    rowsToColumns file out nrow (c :: cols) = .ub := by
  have hlet : letter c.form = 'J' := by
    rcases h.form with ⟨_, e⟩ | e
    · rw [e]; rfl
    · rw [e]; simp [letter]
  obtain ⟨f1, _⟩ := flatten_at c.rows h.len
  rw [h.nrow] at f1
  have hpos : 0 < nrow * n := Nat.mul_pos (by omega) hn
  unfold rowsToColumns
  rw [if_neg hout]
  dsimp only
  have hc : column nrow c = .ub := by
    unfold column
    dsimp only
    rw [hlet, hu, f1, if_neg (by simp), if_neg (by simp), if_pos]
    show 4 * _ < 8 * _
    omega
  rw [if_neg (by omega), List.mapM_cons, hc]
  rfl

/-- **C232** fails for the same column declared by `1J` rather than `J`: the result has two dimensions rather than one. -/
theorem C232_scalar_refuted {E : Type} (nrow : Nat) (rows : List (List E)) (name : Str) (dim : Option Str) :
    ∃ d d', column nrow ⟨name, "J".toList, false, dim, rows⟩ = .ok d ∧ column nrow ⟨name, "1J".toList, false, dim, rows⟩ = .ok d' ∧
      d.dim = some ("(".toList ++ dec nrow ++ ")".toList) ∧ d'.dim = some ("(1,".toList ++ dec nrow ++ ")".toList) := by
  have hn : nelem "1J".toList = 1 := by decide +kernel
  refine ⟨⟨name, (forms nrow "J".toList).1, false, some (forms nrow "J".toList).2, [rows.flatten]⟩, ⟨name, (forms nrow "1J".toList).1, false, some (forms nrow "1J".toList).2, [rows.flatten]⟩, ?_, ?_, ?_, ?_⟩
  · unfold column
    dsimp only
    rw [show letter "J".toList = 'J' from rfl, if_neg (by simp), if_neg (by simp), if_neg (by simp [width, memBytes, diskBytes])]
  · unfold column
    dsimp only
    rw [show letter "1J".toList = 'J' from rfl, if_neg (by simp), if_neg (by simp), if_neg (by simp [width, memBytes, diskBytes])]
  · show some (forms nrow "J".toList).2 = _
    unfold forms
    rw [if_pos (by decide), num_nat]
  · show some (forms nrow "1J".toList).2 = _
    unfold forms
    rw [if_neg (by decide)]
    dsimp only
    rw [hn, num_nat, show num 1 = "1".toList by decide +kernel]
    rfl

/-- **C232** fails for the dimensions of the values of a row, which are not kept: tables of 2 × 3 values give vectors of 6 values. -/
theorem C232_dims_refuted : ∃ d d', column 2 (⟨"x".toList, "6J".toList, false, some "(2,3)".toList, [[1, 2, 3, 4, 5, 6], [7, 8, 9, 10, 11, 12]]⟩ : Col Nat) = .ok d ∧
    column 2 (⟨"x".toList, "6J".toList, false, some "(3,2)".toList, [[1, 2, 3, 4, 5, 6], [7, 8, 9, 10, 11, 12]]⟩ : Col Nat) = .ok d' ∧
    d = d' ∧ d.dim = some "(6,2)".toList :=
  ⟨_, _, rfl, rfl, rfl, by decide +kernel⟩

/-- **C232** fails for a file written over itself: the test that the output is another file accepts `!` and the name of the input, which is the way
to ask for the replacement of a file. -/
theorem C232_same_refuted {E : Type} {file : Str} {nrow : Nat} {cols : List (Col E)} (hrow : nrow ≠ 1) (hcols : ∀ c ∈ cols, ∃ n l, Plain nrow n l c) :
    (∃ ds, rowsToColumns file ('!' :: file) nrow cols = .ok (.wrote file ds)) ∧ rowsToColumns file file nrow cols = .ok (.error false) := by
  constructor
  · obtain ⟨path, ds, h1, _, h2, _⟩ := C232_columns_partial (out := '!' :: file) (file := file) (fun h => by have := congrArg List.length h; simp at this) hrow hcols
    rw [h2 file rfl] at h1
    exact ⟨ds, h1⟩
  · unfold rowsToColumns
    rw [if_pos rfl]

/-- A table with one row is left as it is: nothing is written. -/
theorem C232_one_row {E : Type} {file out : Str} {cols : List (Col E)} : ∃ b, rowsToColumns file out 1 cols = .ok (.error b) := by
  unfold rowsToColumns
  by_cases h : out = file
  · rw [if_pos h]; exact ⟨_, rfl⟩
  · rw [if_neg h]; dsimp only; rw [if_pos rfl]; exact ⟨_, rfl⟩

/-- the hypotheses can be met: a table of two rows with a column of pairs and a column of strings -/
example : (∀ c ∈ [(⟨"x".toList, "2E".toList, false, none, [[1, 2], [3, 4]]⟩ : Col Nat), ⟨"s".toList, "3A".toList, false, none, [[7, 8, 9], [4, 5, 6]]⟩], ∃ n l, Plain 2 n l c) ∧
    rowsToColumns "a".toList "b".toList 2 [(⟨"x".toList, "2E".toList, false, none, [[1, 2], [3, 4]]⟩ : Col Nat)] =
      .ok (.wrote "b".toList [⟨"x".toList, "4E".toList, false, some "(2,2)".toList, [[1, 2, 3, 4]]⟩]) := by
  constructor
  · intro c hc
    simp only [List.mem_cons, List.not_mem_nil, or_false] at hc
    rcases hc with rfl | rfl
    · exact ⟨2, 'E', ⟨.inr (by decide +kernel), rfl, by simp, rfl⟩, by simp, by simp, by norm_num⟩
    · exact ⟨3, 'A', ⟨.inr (by decide +kernel), rfl, by simp, rfl⟩, by simp, by simp, by norm_num⟩
  · decide +kernel

/-- and those of the refutations -/
example : IsCol 2 1 'A' (⟨"x".toList, "A".toList, false, none, [[1], [2]]⟩ : Col Nat) ∧ IsCol 2 1 'J' (⟨"x".toList, "J".toList, true, none, [[1], [2]]⟩ : Col Nat) :=
  ⟨⟨.inl ⟨rfl, rfl⟩, rfl, by simp, rfl⟩, ⟨.inl ⟨rfl, rfl⟩, rfl, by simp, rfl⟩⟩

end Verif.FitsR2c
