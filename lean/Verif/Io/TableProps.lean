import Verif.Io.AsciiProps
/-!
# Properties C82 (reading back a written table), C83 (column lengths), C84 (alignment)
-/
namespace Verif.Io
open Verif Verif.Str

/-- Spec: the elements of line `i` of a column argument -/
def Col.row (i : Nat) : Col → List Str
  | .v1 cells => (cells.drop i).take 1
  | .v2 _ c cells => (cells.drop (i * c)).take c

/-- a 2-D vector holds rows × columns elements -/
def Col.WF : Col → Prop
  | .v1 _ => True
  | .v2 r c cells => cells.length = r * c

/-- Spec: line `i` of the table -/
def tableRow (args : List Col) (i : Nat) : List Str := args.flatMap (Col.row i)

/-- Spec: the number of columns of the table -/
def ncols (args : List Col) : Nat := (args.map Col.cols).sum

/-! ### helpers: what is written -/

theorem mul_add_lt {i r c k : Nat} (hi : i < r) (hk : k < c) : i * c + k < r * c := by
  have h1 : (i + 1) * c ≤ r * c := Nat.mul_le_mul_right c hi
  rw [Nat.add_mul, Nat.one_mul] at h1
  omega

theorem row_length {a : Col} (hw : a.WF) {i : Nat} (hi : i < a.rows) : (a.row i).length = a.cols := by
  cases a with
  | v1 cells => simp only [Col.rows] at hi; simp [Col.row, Col.cols]; omega
  | v2 r c cells =>
    simp only [Col.rows] at hi
    simp only [Col.WF] at hw
    simp only [Col.row, Col.cols, List.length_take, List.length_drop, hw]
    have h1 : (i + 1) * c ≤ r * c := Nat.mul_le_mul_right c hi
    rw [Nat.add_mul, Nat.one_mul] at h1
    omega

theorem colCells_ok {a : Col} (hw : a.WF) {i : Nat} (hi : i < a.rows) : colCells i a = .ok (a.row i) := by
  cases a with
  | v1 cells =>
    simp only [Col.rows] at hi
    simp only [colCells, Res.rd_lt hi, Res.ok_bind, Col.row]
    rw [List.drop_eq_getElem_cons hi]; rfl
  | v2 r c cells =>
    have hl := row_length hw hi
    simp only [Col.rows] at hi
    simp only [Col.WF] at hw
    simp only [Col.cols] at hl
    refine Res.mapM_getElem (by simp [hl]) ?_
    intro k hk hr
    rw [List.length_range] at hk
    have hlt := mul_add_lt hi hk
    rw [if_pos hi, List.getElem_range, Res.rd_lt (by omega)]
    simp [Col.row]

theorem lineCells_ok {args : List Col} {i : Nat} (h : ∀ a ∈ args, a.WF ∧ i < a.rows) :
    lineCells i args = .ok (tableRow args i) ∧ (tableRow args i).length = ncols args := by
  induction args with
  | nil => exact ⟨rfl, rfl⟩
  | cons a args ih =>
    obtain ⟨h1, h2⟩ := ih fun x hx => h x (by simp [hx])
    obtain ⟨h3, h4⟩ := h a (by simp)
    constructor
    · simp [lineCells, colCells_ok h3 h4, h1, tableRow]
    · simp only [tableRow, List.flatMap_cons, List.length_append, row_length h3 h4]
      simp only [tableRow] at h2
      simp [h2, ncols]

theorem checkSize_same {args : List Col} {R : Nat} (h : ∀ a ∈ args, a.rows = R) (c : Nat) :
    checkSize args R c = .ok (R, c + ncols args) := by
  induction args generalizing c with
  | nil => simp [checkSize, ncols]
  | cons a args ih =>
    have ha := h a (by simp)
    have e : (if R = 0 then a.rows else R) = R := by split <;> simp_all
    simp only [checkSize, e]
    rw [if_neg (by simp [ha]), ih (fun x hx => h x (by simp [hx]))]
    simp [ncols]; omega

theorem checkSize_zero {args : List Col} {R : Nat} (h : ∀ a ∈ args, a.rows = R) (hne : args ≠ []) :
    checkSize args 0 0 = .ok (R, ncols args) := by
  cases args with
  | nil => exact absurd rfl hne
  | cons a args =>
    have ha := h a (by simp)
    simp only [checkSize, if_true]
    rw [if_neg (by simp), ha, checkSize_same (fun x hx => h x (by simp [hx]))]
    simp [ncols]

theorem checkSize_diff {args : List Col} {R : Nat} (hR : R ≠ 0) (h : ∃ a ∈ args, a.rows ≠ R) (c : Nat) :
    checkSize args R c = .abort := by
  induction args generalizing c with
  | nil => simp at h
  | cons a args ih =>
    simp only [checkSize, if_neg hR]
    split
    · rfl
    · rename_i he
      rw [Decidable.not_not] at he
      refine ih ?_ _
      obtain ⟨x, hx, hxr⟩ := h
      rcases List.mem_cons.1 hx with rfl | hx
      · exact absurd he hxr
      · exact ⟨x, hx, hxr⟩

/-- a cell padded on the left with spaces -/
def Pad (s p : Str) : Prop := ∃ k, p = List.replicate k ' ' ++ s

theorem pad_align (s : Str) (w : Nat) : Pad s (alignRight s w ' ') := by
  unfold alignRight
  split
  · exact ⟨_, rfl⟩
  · exact ⟨0, rfl⟩

theorem Pad.trans {a b c : Str} (h : Pad a b) (h' : Pad b c) : Pad a c := by
  obtain ⟨k, rfl⟩ := h
  obtain ⟨l, rfl⟩ := h'
  exact ⟨l + k, by rw [← List.append_assoc, List.replicate_append_replicate]⟩

/-- the cells of a line after alignment -/
def aligned (ss : List Str) (cw : List Nat) : List Str := List.zipWith (fun s w => alignRight s w ' ') ss cw

theorem aligned_pad (ss : List Str) (cw : List Nat) (h : ss.length = cw.length) : List.Forall₂ Pad ss (aligned ss cw) := by
  induction ss generalizing cw with
  | nil => cases cw with
    | nil => exact .nil
    | cons => simp at h
  | cons s ss ih => cases cw with
    | nil => simp at h
    | cons w cw => exact .cons (pad_align s w) (ih cw (by simpa using h))

theorem cacheRow_ok (cw : List Nat) (ss : List Str) (j : Nat) (h : j + ss.length ≤ cw.length) :
    cacheRow cw j ss = .ok (aligned ss (cw.drop j)) := by
  induction ss generalizing j with
  | nil => rfl
  | cons s ss ih =>
    rw [List.length_cons] at h
    have hj : j < cw.length := by omega
    simp only [cacheRow]
    rw [List.getElem?_eq_getElem hj, List.drop_eq_getElem_cons hj]
    simp only [ih (j + 1) (by omega), Res.ok_bind]
    rfl

theorem writeRow_succ (delim : Str) (cw : List Nat) (ss : List Str) (j : Nat) (hj0 : j ≠ 0) (h : j + ss.length ≤ cw.length) :
    writeRow delim cw j ss = .ok ((aligned ss (cw.drop j)).flatMap (delim ++ ·)) := by
  induction ss generalizing j with
  | nil => rfl
  | cons s ss ih =>
    rw [List.length_cons] at h
    have hj : j < cw.length := by omega
    simp only [writeRow]
    rw [List.getElem?_eq_getElem hj, List.drop_eq_getElem_cons hj]
    simp only [ih (j + 1) (by omega) (by omega), Res.ok_bind]
    simp only [aligned, List.drop_eq_getElem_cons hj, List.zipWith_cons_cons, List.flatMap_cons]
    simp [hj0]

theorem intercalate_flatMap (sep x : Str) (l : List Str) :
    List.intercalate sep (x :: l) = x ++ l.flatMap (sep ++ ·) := by
  induction l generalizing x with
  | nil => simp
  | cons y l ih => rw [List.intercalate_cons_cons, ih]; simp

theorem writeRow_ok (delim : Str) (cw : List Nat) (ss : List Str) (h : ss.length = cw.length) :
    writeRow delim cw 0 ss = .ok (List.intercalate delim (aligned ss cw)) := by
  cases ss with
  | nil => cases cw with
    | nil => rfl
    | cons => simp at h
  | cons s ss => cases cw with
    | nil => simp at h
    | cons w cw =>
      have := writeRow_succ delim (w :: cw) ss 1 (by omega) (by simp at h ⊢; omega)
      rw [List.drop_one, List.tail_cons] at this
      simp only [writeRow, List.getElem?_cons_zero, Nat.zero_add, this, Res.ok_bind, aligned,
        List.zipWith_cons_cons, intercalate_flatMap]
      simp

theorem headerCells_succ (o : OutFmt) (cw : List Nat) (ss : List Str) (j : Nat) (hj0 : j ≠ 0) :
    headerCells o cw j ss = writeRow o.delim cw j ss := by
  induction ss generalizing j with
  | nil => rfl
  | cons s ss ih =>
    simp only [headerCells, writeRow, ih (j + 1) (by omega)]
    cases cw[j]? with
    | none => rfl
    | some w => simp [hj0]

/-- the widths used for the header -/
def headWidths (o : OutFmt) : List Nat → List Nat
  | [] => []
  | w :: cw => (if w ≥ o.headerChars.length then w - o.headerChars.length else w) :: cw

theorem headerCells_ok (o : OutFmt) (cw : List Nat) (ss : List Str) (h : ss.length = cw.length) :
    headerCells o cw 0 ss = .ok (List.intercalate o.delim (aligned ss (headWidths o cw))) := by
  cases ss with
  | nil => cases cw with
    | nil => rfl
    | cons => simp at h
  | cons s ss => cases cw with
    | nil => simp at h
    | cons w cw =>
      have := writeRow_succ o.delim (w :: cw) ss 1 (by omega) (by simp at h ⊢; omega)
      rw [List.drop_one, List.tail_cons] at this
      simp only [headerCells, List.getElem?_cons_zero, Nat.zero_add, headerCells_succ o _ ss 1 (by omega), this,
        Res.ok_bind, aligned, headWidths, List.zipWith_cons_cons, intercalate_flatMap]
      simp

theorem headWidths_length (o : OutFmt) (cw : List Nat) : (headWidths o cw).length = cw.length := by cases cw <;> simp [headWidths]

/-- the header line -/
def headLine (o : OutFmt) (cw : List Nat) : Str := o.headerChars ++ List.intercalate o.delim (aligned o.header (headWidths o cw))

theorem writeHeader_ok (o : OutFmt) (cw : List Nat) (h : o.header = [] ∨ o.header.length = cw.length) :
    writeHeader o cw = .ok (((if o.header = [] then [] else [headLine o cw]).map (· ++ ['\n'])).flatten) := by
  unfold writeHeader
  split
  · rfl
  · rename_i hne
    rw [headerCells_ok o cw _ (h.resolve_left hne), Res.ok_bind]
    simp [headLine]

/-- the final column widths -/
def widths (o : OutFmt) (args : List Col) (r : Nat) : List Nat :=
  let cw := List.replicate (ncols args) o.minWidth
  if o.autoWidth then
    cw.mapIdx fun j w => colWidth o ((List.range r).map fun i => aligned (tableRow args i) cw) j w
  else cw

/-- the cells as they are handed to the file writer -/
def cached (o : OutFmt) (args : List Col) (i : Nat) : List Str :=
  if o.autoWidth then aligned (tableRow args i) (List.replicate (ncols args) o.minWidth) else tableRow args i

theorem widths_length (o : OutFmt) (args : List Col) (r : Nat) : (widths o args r).length = ncols args := by
  unfold widths; simp only; split <;> simp

theorem aligned_length {ss : List Str} {cw : List Nat} (h : ss.length = cw.length) : (aligned ss cw).length = cw.length := by
  simp [aligned, h]

/-- the lines of the file -/
def outLines (o : OutFmt) (args : List Col) (r : Nat) : List Str :=
  (if o.header = [] then [] else [headLine o (widths o args r)]) ++
    (List.range r).map fun i => List.intercalate o.delim (aligned (cached o args i) (widths o args r))

/-- what `write_table` writes when all columns have the same length -/
theorem writeTable_ok (o : OutFmt) (args : List Col) (r : Nat) (hne : args ≠ []) (hwf : ∀ a ∈ args, a.WF)
    (hr : ∀ a ∈ args, a.rows = r) (hh : o.header = [] ∨ o.header.length = ncols args) :
    writeTable o args = .ok (((outLines o args r).map (· ++ ['\n'])).flatten) := by
  have hlen : ∀ i < r, (tableRow args i).length = ncols args := fun i hi =>
    (lineCells_ok fun a ha => ⟨hwf a ha, by rw [hr a ha]; exact hi⟩).2
  have hline : ∀ i < r, lineCells i args = .ok (tableRow args i) := fun i hi =>
    (lineCells_ok fun a ha => ⟨hwf a ha, by rw [hr a ha]; exact hi⟩).1
  unfold writeTable
  rw [checkSize_zero hr hne, Res.ok_bind]
  simp only
  rw [if_neg (by rcases hh with h | h <;> simp [h])]
  cases ha : o.autoWidth with
  | true =>
    simp only [if_true]
    have h1 : (List.range r).mapM (fun i => do
        let cells ← lineCells i args
        cacheRow (List.replicate (ncols args) o.minWidth) 0 cells) =
        .ok ((List.range r).map fun i => aligned (tableRow args i) (List.replicate (ncols args) o.minWidth)) := by
      refine Res.mapM_ok fun i hi => ?_
      rw [List.mem_range] at hi
      rw [hline i hi, Res.ok_bind, cacheRow_ok _ _ 0 (by simp [hlen i hi])]
      rfl
    rw [h1, Res.ok_bind]
    have hw : (List.replicate (ncols args) o.minWidth).mapIdx (fun j w => colWidth o
        ((List.range r).map fun i => aligned (tableRow args i) (List.replicate (ncols args) o.minWidth)) j w) =
        widths o args r := by simp [widths, ha]
    rw [hw, writeHeader_ok o _ (by rw [widths_length]; exact hh), Res.ok_bind, List.mapM_map]
    rw [Res.mapM_ok (g := fun i => List.intercalate o.delim (aligned (cached o args i) (widths o args r)) ++ ['\n'])]
    · simp [outLines, Function.comp_def]
    · intro i hi
      rw [List.mem_range] at hi
      simp only [Function.comp_apply]
      rw [writeRow_ok, Res.ok_bind]
      · simp [cached, ha]
      · rw [widths_length, aligned_length (by simp [hlen i hi])]; simp
  | false =>
    simp only [Bool.false_eq_true, if_false]
    have hw : List.replicate (ncols args) o.minWidth = widths o args r := by simp [widths, ha]
    rw [hw, writeHeader_ok o _ (by rw [widths_length]; exact hh), Res.ok_bind]
    rw [Res.mapM_ok (g := fun i => List.intercalate o.delim (aligned (cached o args i) (widths o args r)) ++ ['\n'])]
    · simp [outLines, Function.comp_def]
    · intro i hi
      rw [List.mem_range] at hi
      rw [hline i hi, Res.ok_bind, writeRow_ok, Res.ok_bind]
      · simp [cached, ha]
      · rw [widths_length, hlen i hi]

theorem forall2_pad_trans {a b c : List Str} (h : List.Forall₂ Pad a b) (h' : List.Forall₂ Pad b c) : List.Forall₂ Pad a c := by
  induction h generalizing c with
  | nil => cases h'; exact .nil
  | cons h1 _ ih => cases h' with
    | cons h2 h3 => exact .cons (h1.trans h2) (ih h3)

theorem out_pad (o : OutFmt) (args : List Col) (r i : Nat) (h : (tableRow args i).length = ncols args) :
    List.Forall₂ Pad (tableRow args i) (aligned (cached o args i) (widths o args r)) := by
  unfold cached
  split
  · refine forall2_pad_trans (aligned_pad _ _ (by simp [h])) (aligned_pad _ _ ?_)
    rw [aligned_length (by simp [h]), widths_length]; simp
  · exact aligned_pad _ _ (by rw [widths_length, h])

/-! ### helpers: reading back -/

theorem fileLines_append (cur l s : Str) (h : '\n' ∉ l) : fileLines cur (l ++ '\n' :: s) = (cur ++ l) :: fileLines [] s := by
  induction l generalizing cur with
  | nil => simp [fileLines]
  | cons c l ih =>
    have hc : c ≠ '\n' := by rintro rfl; simp at h
    rw [List.cons_append, fileLines, if_neg hc, ih _ (by intro hx; exact h (by simp [hx]))]
    simp

theorem fileLines_lines (ls : List Str) (h : ∀ l ∈ ls, '\n' ∉ l) :
    fileLines [] ((ls.map (· ++ ['\n'])).flatten) = ls ++ [[]] := by
  induction ls with
  | nil => rfl
  | cons l ls ih =>
    have : ((l :: ls).map (· ++ ['\n'])).flatten = l ++ '\n' :: (ls.map (· ++ ['\n'])).flatten := by simp
    rw [this, fileLines_append _ _ _ (h l (by simp)), ih fun x hx => h x (by simp [hx])]
    simp

theorem chomp_id (l : Str) (h : '\r' ∉ l) (h' : '\n' ∉ l) : chomp l = l := by
  unfold chomp
  cases hr : l.reverse with
  | nil => simp at hr; simp [hr]
  | cons c t =>
    have hc : c ∈ l := by rw [← List.mem_reverse, hr]; simp
    have h1 : c ≠ '\r' := by rintro rfl; exact h hc
    have h2 : c ≠ '\n' := by rintro rfl; exact h' hc
    rw [List.dropWhile_cons_of_neg (by simp [h1, h2]), ← hr, List.reverse_reverse]

theorem isData_head {a u : Str} {c : Char} (ha : ∀ x ∈ a, x ∈ [' ', '\t']) (hc : c ∉ [' ', '\t']) (o : InFmt)
    (hp : o.skipPattern = ['#']) (hs : o.autoSkip = true) : isData o (a ++ c :: u) = true ↔ c ≠ '#' := by
  unfold isData
  have h1 := firstNotOf_append_some (d := []) (t := u) ha hc
  simp only [List.nil_append, List.length_nil, Nat.zero_add] at h1
  rw [h1, hs, hp]
  simp only [Bool.true_and, Bool.not_eq_true', beq_eq_false_iff_ne, ne_eq]
  rw [not_iff_not, sfind_some]
  constructor
  · rintro ⟨-, -, ⟨t, ht⟩, -⟩
    rw [List.drop_left] at ht
    simp at ht
    exact ht.1.symm
  · rintro rfl
    refine ⟨by omega, by simp, ⟨u, by simp⟩, ?_⟩
    rintro j - hj ⟨t, ht⟩
    have h2 : ((a ++ '#' :: u).drop j)[0]? = some '#' := by rw [← ht]; rfl
    rw [List.getElem?_drop, Nat.add_zero, List.getElem?_append_left hj] at h2
    exact absurd (ha '#' (List.mem_of_getElem? h2)) (by decide)

/-- the words of cells padded and joined with blanks -/
theorem words_joined (cs delim : Str) (hsp : ' ' ∈ cs) (hd : delim ≠ []) (hdc : ∀ c ∈ delim, c ∈ cs) {ss ps : List Str}
    (h : List.Forall₂ Pad ss ps) (hw : ∀ s ∈ ss, s ≠ [] ∧ ∀ c ∈ s, c ∉ cs) :
    words cs (List.intercalate delim ps) = ss := by
  induction h with
  | nil => rfl
  | @cons s p ss ps h1 h2 ih =>
    obtain ⟨k, rfl⟩ := h1
    have hs := hw s (by simp)
    have hrep : ∀ c ∈ List.replicate k ' ', c ∈ cs := by
      intro c hc; rw [(List.mem_replicate.1 hc).2]; exact hsp
    have ih' := ih fun x hx => hw x (by simp [hx])
    cases h2 with
    | nil => rw [List.intercalate_singleton, words_seps _ _ _ hrep, words_word _ _ hs.2 hs.1]
    | cons h3 h4 =>
      rw [List.intercalate_cons_cons, List.append_assoc, List.append_assoc, words_seps _ _ _ hrep]
      cases delim with
      | nil => exact absurd rfl hd
      | cons d ds =>
        rw [List.cons_append, words_append _ _ _ _ (hdc d (by simp)), words_word _ _ hs.2 hs.1,
          words_seps _ ds _ (fun c hc => hdc c (by simp [hc])), ih']
        rfl

theorem rowSpec_all (n : Nat) (ws : List Str) (h : ws.length = n) :
    rowSpec (List.replicate n (.read (some : Str → Option Str))) ws = some ws := by
  induction n generalizing ws with
  | zero => cases ws with
    | nil => rfl
    | cons => simp at h
  | succ n ih => cases ws with
    | nil => simp at h
    | cons w ws => simp [List.replicate_succ, rowSpec, ih ws (by simpa using h)]

theorem orAbort_mapM {α β : Type} (f : α → Option β) (g : α → β) (l : List α) (h : ∀ x ∈ l, f x = some (g x)) :
    orAbort (l.mapM f) = .ok (l.map g) := by
  have : l.mapM f = some (l.map g) := by
    induction l with
    | nil => rfl
    | cons a l ih => rw [List.mapM_cons, h a (by simp), ih fun x hx => h x (by simp [hx])]; rfl
  rw [this]; rfl

theorem not_mem_intercalate {c : Char} {delim : Str} {ps : List Str} (hd : c ∉ delim) (hp : ∀ p ∈ ps, c ∉ p) :
    c ∉ List.intercalate delim ps := by
  induction ps with
  | nil => simp
  | cons p ps ih =>
    cases ps with
    | nil => simpa using hp p (by simp)
    | cons q ps =>
      rw [List.intercalate_cons_cons]
      have := ih fun x hx => hp x (by simp at hx; simp [hx])
      simp only [List.mem_append, not_or]
      exact ⟨⟨hp p (by simp), hd⟩, this⟩

theorem pad_not_mem {ss ps : List Str} (h : List.Forall₂ Pad ss ps) {c : Char} (hc : c ≠ ' ') (hs : ∀ s ∈ ss, c ∉ s) :
    ∀ p ∈ ps, c ∉ p := by
  induction h with
  | nil => simp
  | cons h1 _ ih =>
    obtain ⟨k, rfl⟩ := h1
    intro p hp
    rcases List.mem_cons.1 hp with rfl | hp
    · simp only [List.mem_append, List.mem_replicate, not_or, not_and]
      exact ⟨fun _ => hc, hs _ (by simp)⟩
    · exact ih (fun s hs' => hs s (by simp [hs'])) p hp

/-- the beginning of a line -/
theorem joined_head {ss ps : List Str} (h : List.Forall₂ Pad ss ps) (delim s : Str) (hs : ss.head? = some s) :
    ∃ k t, List.intercalate delim ps = List.replicate k ' ' ++ (s ++ t) := by
  cases h with
  | nil => simp at hs
  | @cons s' p ss ps h1 h2 =>
    simp only [List.head?_cons, Option.some.injEq] at hs
    subst hs
    obtain ⟨k, rfl⟩ := h1
    exact ⟨k, ps.flatMap (delim ++ ·), by rw [intercalate_flatMap]; simp⟩

/-- the comment line is skipped -/
theorem head_not_data (o : InFmt) (hp : o.skipPattern = ['#']) (hs : o.autoSkip = true) (l : Str) :
    isData o (chomp ('#' :: l)) = false := by
  obtain ⟨e, he, h1, h2⟩ := chomp_spec ('#' :: l)
  cases hc : chomp ('#' :: l) with
  | nil =>
    rw [hc] at he
    have := h1 '#' (by rw [List.nil_append] at he; rw [← he]; simp)
    exact absurd this (by decide)
  | cons c t =>
    rw [hc, List.cons_append, List.cons.injEq] at he
    rw [← he.1]
    have := isData_head (a := []) (u := t) (c := '#') (by simp) (by decide) o hp hs
    simp only [List.nil_append, ne_eq, not_true_eq_false, iff_false, Bool.not_eq_true] at this
    exact this

/-- reading back the lines of the file -/
theorem read_lines {V : Type} (oi : InFmt) (hpat : oi.skipPattern = ['#']) (hsk : oi.autoSkip = true) (hf : oi.skipFirst = 0)
    (acts : List (Act V)) (f : Str → Option (List V)) (hl dl : List Str) (hhl : ∀ l ∈ hl, '\n' ∉ l ∧ l.head? = some '#')
    (hdl : ∀ l ∈ dl, '\n' ∉ l ∧ '\r' ∉ l ∧ isData oi l = true)
    (hrow : ∀ l ∈ dl, readRow acts ⟨l, some 0, oi.delim, oi.single⟩ = orAbort (f l)) :
    readTable (((hl ++ dl).map (· ++ ['\n'])).flatten) oi acts = orAbort (dl.mapM f) := by
  have hnl : ∀ l ∈ hl ++ dl, '\n' ∉ l := by
    intro l hx
    rcases List.mem_append.1 hx with hx | hx
    · exact (hhl l hx).1
    · exact (hdl l hx).1
  have hmap : dl.map chomp = dl := by
    conv => rhs; rw [← List.map_id dl]
    refine List.map_congr_left fun l hx => ?_
    exact chomp_id l (hdl l hx).2.1 (hdl l hx).1
  have h1 : (hl.map chomp).filter (isData oi) = [] := by
    rw [List.filter_eq_nil_iff]
    intro l hx
    obtain ⟨l', h2, rfl⟩ := List.mem_map.1 hx
    have := (hhl l' h2).2
    cases l' with
    | nil => simp at this
    | cons c t =>
      simp only [List.head?_cons, Option.some.injEq] at this
      rw [this, head_not_data oi hpat hsk]; simp
  have hempty : isData oi (chomp []) = false := by
    have := firstNotOf_append_none (d := []) (t := []) (cs := [' ', '\t']) (by simp)
    simp only [List.nil_append, List.length_nil] at this
    simp [chomp, isData, this]
  have hfil : (((hl ++ dl) ++ [[]]).map chomp).filter (isData oi) = dl := by
    rw [List.map_append, List.map_append, List.filter_append, List.filter_append, h1, hmap,
      List.filter_eq_self.2 fun l hx => (hdl l hx).2.2]
    simp [hempty]
  simp only [readTable, List.countP_eq_length_filter, fileLines_lines _ hnl, hfil, hf]
  rw [if_neg (by omega), readLoop_spec oi acts f _ _ 0 0 (by rw [hfil]; simpa using hrow) (by rw [hfil]; simp), hfil,
    List.drop_zero]
  exact pad_spec _ _ _ (by simp)

/-! ### C82 -/

/-- Spec: a cell that is one word: not empty, no blanks and no line breaks. -/
def Word (s : Str) : Prop := s ≠ [] ∧ ' ' ∉ s ∧ '\t' ∉ s ∧ '\n' ∉ s ∧ '\r' ∉ s

/-- Spec: the header, if any, is one comment line with one name per column. -/
def GoodHeader (o : OutFmt) (n : Nat) : Prop := o.header = [] ∨
  (o.header.length = n ∧ o.headerChars.head? = some '#' ∧ '\n' ∉ o.headerChars ∧ ∀ s ∈ o.header, '\n' ∉ s)

theorem headLine_good (o : OutFmt) (args : List Col) (r : Nat) (hh : GoodHeader o (ncols args)) (hd : '\n' ∉ o.delim)
    (l : Str) (hl : l ∈ if o.header = [] then [] else [headLine o (widths o args r)]) : '\n' ∉ l ∧ l.head? = some '#' := by
  split at hl
  · simp at hl
  · rename_i hne
    obtain ⟨h1, h2, h3, h4⟩ := hh.resolve_left hne
    obtain rfl : l = headLine o (widths o args r) := by simpa using hl
    unfold headLine
    constructor
    · simp only [List.mem_append, not_or]
      refine ⟨h3, not_mem_intercalate hd ?_⟩
      refine pad_not_mem (aligned_pad _ _ ?_) (by decide) h4
      rw [headWidths_length, widths_length, h1]
    · cases hc : o.headerChars with
      | nil => rw [hc] at h2; simp at h2
      | cons c t => rw [hc] at h2; simpa using h2

/-- C82: a table of words written with any widths, any blank delimiter and with or without a header is read
back unchanged (with the standard input format). -/
theorem C82_roundtrip (o : OutFmt) (args : List Col) (r : Nat) (hwf : ∀ a ∈ args, a.WF)
    (hr : ∀ a ∈ args, a.rows = r) (hn : ncols args ≠ 0) (hh : GoodHeader o (ncols args))
    (hd : o.delim ≠ [] ∧ ∀ c ∈ o.delim, c = ' ' ∨ c = '\t') (hw : ∀ i < r, ∀ s ∈ tableRow args i, Word s)
    (hc : ∀ i < r, ∀ s, (tableRow args i).head? = some s → s.head? ≠ some '#') :
    ∃ file, writeTable o args = .ok file ∧
      readTable file {} (List.replicate (ncols args) (.read some)) = .ok ((List.range r).map (tableRow args)) := by
  have hne : args ≠ [] := by rintro rfl; exact hn rfl
  refine ⟨_, writeTable_ok o args r hne hwf hr (hh.imp_right fun h => h.1), ?_⟩
  have hlen : ∀ i < r, (tableRow args i).length = ncols args := fun i hi =>
    (lineCells_ok fun a ha => ⟨hwf a ha, by rw [hr a ha]; exact hi⟩).2
  have hdn : ∀ c ∈ o.delim, c ∈ [' ', '\t'] := fun c hc => by simpa using hd.2 c hc
  have hnd : ∀ c, c ≠ ' ' → c ≠ '\t' → c ∉ o.delim := fun c h1 h2 h3 => (hd.2 c h3).elim h1 h2
  have hwords : ∀ i < r, words [' ', '\t'] (List.intercalate o.delim (aligned (cached o args i) (widths o args r))) =
      tableRow args i := by
    intro i hi
    refine words_joined _ _ (by simp) hd.1 hdn (out_pad o args r i (hlen i hi)) ?_
    intro s hs
    obtain ⟨h1, h2, h3, -, -⟩ := hw i hi s hs
    refine ⟨h1, fun c hc hc' => ?_⟩
    simp at hc'
    rcases hc' with rfl | rfl
    · exact h2 hc
    · exact h3 hc
  unfold outLines
  rw [read_lines {} rfl rfl rfl _ (fun l => rowSpec (List.replicate (ncols args) (.read some)) (words [' ', '\t'] l)) _ _
    (headLine_good o args r hh (hnd _ (by decide) (by decide)))]
  · rw [List.mapM_map]
    refine orAbort_mapM _ _ _ fun i hi => ?_
    rw [List.mem_range] at hi
    simp only [Function.comp_apply, hwords i hi]
    exact rowSpec_all _ _ (hlen i hi)
  · intro l hl
    obtain ⟨i, hi, rfl⟩ := List.mem_map.1 hl
    rw [List.mem_range] at hi
    have hp := out_pad o args r i (hlen i hi)
    refine ⟨not_mem_intercalate (hnd _ (by decide) (by decide)) (pad_not_mem hp (by decide) fun s hs => (hw i hi s hs).2.2.2.1),
      not_mem_intercalate (hnd _ (by decide) (by decide)) (pad_not_mem hp (by decide) fun s hs => (hw i hi s hs).2.2.2.2), ?_⟩
    cases hrow : tableRow args i with
    | nil =>
      have := hlen i hi
      rw [hrow] at this
      exact absurd this.symm hn
    | cons s ss =>
      obtain ⟨k, t, he⟩ := joined_head hp o.delim s (by rw [hrow]; rfl)
      rw [he]
      have hs := hw i hi s (by rw [hrow]; simp)
      have hs2 := hc i hi s (by rw [hrow]; rfl)
      cases s with
      | nil => exact absurd rfl hs.1
      | cons c u =>
        rw [List.cons_append, isData_head (fun x hx => by rw [(List.mem_replicate.1 hx).2]; simp) ?_ {} rfl rfl]
        · simpa using hs2
        · intro hcc
          simp at hcc
          rcases hcc with rfl | rfl
          · exact hs.2.1 (by simp)
          · exact hs.2.2.1 (by simp)
  · intro l _
    exact readRow_rem _ _ _ (.blank l [' ', '\t'] [] l rfl)

/-- C82 for CSV files, with the hypothesis that the first cell of each row is not empty (it must contain a
character that is neither blank nor the start of a comment); the other cells may be empty and contain blanks. -/
theorem C82_csv_partial (o : OutFmt) (ho : o.autoWidth = false ∧ o.minWidth = 0 ∧ o.delim = [',']) (args : List Col) (r : Nat)
    (hwf : ∀ a ∈ args, a.WF) (hr : ∀ a ∈ args, a.rows = r) (hn : ncols args ≠ 0) (hh : GoodHeader o (ncols args))
    (hw : ∀ i < r, ∀ s ∈ tableRow args i, ',' ∉ s ∧ '\n' ∉ s ∧ '\r' ∉ s)
    (hc : ∀ i < r, ∀ s, (tableRow args i).head? = some s →
      ∃ b c u, s = b ++ c :: u ∧ Blank b ∧ c ≠ ' ' ∧ c ≠ '\t' ∧ c ≠ '#') :
    ∃ file, writeTable o args = .ok file ∧
      readTable file InFmt.csv (List.replicate (ncols args) (.read some)) = .ok ((List.range r).map (tableRow args)) := by
  have hne : args ≠ [] := by rintro rfl; exact hn rfl
  refine ⟨_, writeTable_ok o args r hne hwf hr (hh.imp_right fun h => h.1), ?_⟩
  have hlen : ∀ i < r, (tableRow args i).length = ncols args := fun i hi =>
    (lineCells_ok fun a ha => ⟨hwf a ha, by rw [hr a ha]; exact hi⟩).2
  have hal : ∀ i < r, aligned (cached o args i) (widths o args r) = tableRow args i := by
    intro i hi
    have h0 : ∀ (ss : List Str) (n : Nat), ss.length = n → aligned ss (List.replicate n 0) = ss := by
      intro ss
      induction ss with
      | nil => intro n _; simp [aligned]
      | cons s ss ih =>
        rintro n rfl
        have := ih _ rfl
        unfold aligned at this ⊢
        simp only [List.length_cons, List.replicate_succ, List.zipWith_cons_cons, this]
        simp [alignRight]
    simp only [cached, widths, ho.1, ho.2.1, Bool.false_eq_true, if_false]
    exact h0 _ _ (hlen i hi)
  have hnr : ∀ i < r, tableRow args i ≠ [] := by
    intro i hi h
    have := hlen i hi
    rw [h] at this
    exact hn this.symm
  have hsplit : ∀ i < r, IsSplit [','] (List.intercalate [','] (tableRow args i)) (tableRow args i) := fun i hi =>
    isSplit_of_chars ',' _ (hnr i hi) fun s hs => (hw i hi s hs).1
  -- the pieces of a line
  have hex : ∀ l : Str, ∃ ps, IsSplit [','] l ps := fun l => isSplit_exists [','] (by simp) l
  have hlines : (List.range r).map (fun i => List.intercalate o.delim (aligned (cached o args i) (widths o args r))) =
      (List.range r).map fun i => List.intercalate [','] (tableRow args i) := by
    refine List.map_congr_left fun i hi => ?_
    rw [List.mem_range] at hi
    rw [hal i hi, ho.2.2]
  have hhead : ∀ i < r, ∃ b c u, List.intercalate [','] (tableRow args i) = b ++ c :: u ∧ Blank b ∧ c ≠ ' ' ∧ c ≠ '\t' ∧ c ≠ '#' ∧
      (b = [] → c ≠ ',') := by
    intro i hi
    cases hrow : tableRow args i with
    | nil => exact absurd hrow (hnr i hi)
    | cons s ss =>
      obtain ⟨b, c, u, h1, h2, h3⟩ := hc i hi s (by rw [hrow]; rfl)
      refine ⟨b, c, u ++ ss.flatMap ([','] ++ ·), ?_, h2, h3.1, h3.2.1, h3.2.2, ?_⟩
      · rw [intercalate_flatMap, h1]; simp
      · intro _ hcc
        exact (hw i hi s (by rw [hrow]; simp)).1 (by rw [h1, hcc]; simp)
  unfold outLines
  rw [hlines, read_lines InFmt.csv rfl rfl rfl _
    (fun l => rowSpec (List.replicate (ncols args) (.read some)) (Classical.choose (hex l))) _ _
    (headLine_good o args r hh (by rw [ho.2.2]; decide))]
  · rw [List.mapM_map]
    refine orAbort_mapM _ _ _ fun i hi => ?_
    rw [List.mem_range] at hi
    have := isSplit_unique (by simp) (Classical.choose_spec (hex (List.intercalate [','] (tableRow args i)))) (hsplit i hi)
    simp only [Function.comp_apply]
    rw [this]
    exact rowSpec_all _ _ (hlen i hi)
  · intro l hl
    obtain ⟨i, hi, rfl⟩ := List.mem_map.1 hl
    rw [List.mem_range] at hi
    refine ⟨not_mem_intercalate (by decide) fun s hs => (hw i hi s hs).2.1,
      not_mem_intercalate (by decide) fun s hs => (hw i hi s hs).2.2, ?_⟩
    obtain ⟨b, c, u, h1, h2, h3, h4, h5, -⟩ := hhead i hi
    rw [h1, isData_head (fun x hx => by simpa using h2 x hx) (by simp [h3, h4]) _ rfl rfl]
    exact h5
  · intro l hl
    obtain ⟨i, hi, rfl⟩ := List.mem_map.1 hl
    rw [List.mem_range] at hi
    refine readRow_rem _ _ _ (.first _ [','] _ (by simp) ?_ (Classical.choose_spec (hex _)))
    obtain ⟨b, c, u, h1, h2, h3, h4, h5, h6⟩ := hhead i hi
    rw [h1]
    rintro ⟨t, ht⟩
    cases b with
    | nil =>
      simp at ht
      exact h6 rfl ht.1.symm
    | cons x b =>
      simp at ht
      have := h2 x (by simp)
      rw [← ht.1] at this
      exact absurd this (by decide)

/-- C82 is false for a CSV table with an empty cell in the first column: it comes back with all columns
empty. -/
theorem C82_csv_refuted : ∃ file, writeTable OutFmt.csv [.v1 [[]], .v1 ["7".toList]] = .ok file ∧
    readTable file InFmt.csv [.read some, .read some] = .ok [[[], ([] : Str)]] := ⟨",7\n".toList, by decide, by decide⟩

example : ∃ file, writeTable { header := ["id".toList, "x".toList] } [.v1 ["1".toList, "20".toList], .v1 ["a".toList, "b".toList]] = .ok file ∧
    file = "# id x\n   1 a\n  20 b\n".toList := ⟨_, by decide, rfl⟩
example : GoodHeader { header := ["id".toList, "x".toList] } 2 := .inr (by decide)

/-! ### C83 -/

/-- C83, for tables whose first column is not empty (or with all columns empty): `write_table` writes the
table when all columns have the same length, and stops with an error otherwise. -/
theorem C83_partial (o : OutFmt) (a : Col) (args : List Col) (hwf : ∀ x ∈ a :: args, x.WF)
    (hh : o.header = [] ∨ o.header.length = ncols (a :: args)) (h0 : a.rows ≠ 0 ∨ ∀ x ∈ args, x.rows = 0) :
    ((∀ x ∈ args, x.rows = a.rows) → ∃ s, writeTable o (a :: args) = .ok s) ∧
    ((∃ x ∈ args, x.rows ≠ a.rows) → writeTable o (a :: args) = .abort) := by
  constructor
  · intro h
    exact ⟨_, writeTable_ok o (a :: args) a.rows (by simp) hwf (by simpa using h) hh⟩
  · rintro ⟨x, hx, hxr⟩
    have ha : a.rows ≠ 0 := by
      rcases h0 with h | h
      · exact h
      · intro ha
        exact hxr (by rw [h x hx, ha])
    have : checkSize (a :: args) 0 0 = .abort := by
      simp only [checkSize, if_true]
      rw [if_neg (by simp)]
      exact checkSize_diff ha ⟨x, hx, hxr⟩ _
    unfold writeTable
    rw [this]
    rfl

/-- C83 is false when the first column is empty: the check takes the length of the second column and the
first column is read beyond its end. -/
theorem C83_refuted : writeTable {} [.v1 [], .v1 ["x".toList]] = .ub := by decide

example : writeTable {} [.v1 ["x".toList], .v1 []] = .abort := by decide

/-! ### C84 -/

theorem align_length (s : Str) (w : Nat) (h : s.length ≤ w) : (alignRight s w ' ').length = w := by
  unfold alignRight
  split
  · simp; omega
  · omega

theorem intercalate_length (delim : Str) (ps : List Str) (ws : List Nat) (h : List.Forall₂ (fun p w => p.length = w) ps ws) :
    (List.intercalate delim ps).length = ws.sum + (ws.length - 1) * delim.length := by
  induction h with
  | nil => simp
  | @cons p w ps ws h1 h2 ih =>
    cases h2 with
    | nil => simp [h1]
    | @cons p' w' ps' ws' h3 h4 =>
      rw [List.intercalate_cons_cons]
      simp only [List.length_append, ih, h1]
      simp only [List.length_cons, List.sum_cons]
      rw [Nat.add_sub_cancel, Nat.add_sub_cancel, Nat.add_mul]
      omega

theorem aligned_lengths (ss : List Str) (cw : List Nat) (h : List.Forall₂ (fun s w => s.length ≤ w) ss cw) :
    List.Forall₂ (fun (p : Str) w => p.length = w) (aligned ss cw) cw := by
  induction h with
  | nil => exact .nil
  | cons h1 _ ih => exact .cons (align_length _ _ h1) ih

theorem foldl_max_ge (f : List Str → Nat) (rows : List (List Str)) (w : Nat) :
    w ≤ rows.foldl (fun w row => max w (f row)) w ∧ ∀ row ∈ rows, f row ≤ rows.foldl (fun w row => max w (f row)) w := by
  induction rows generalizing w with
  | nil => simp
  | cons r rows ih =>
    obtain ⟨h1, h2⟩ := ih (max w (f r))
    rw [List.foldl_cons]
    refine ⟨by omega, ?_⟩
    intro row hrow
    rcases List.mem_cons.1 hrow with rfl | hrow
    · omega
    · exact h2 row hrow

theorem forall2_of_getElem {α β : Type} {R : α → β → Prop} (l : List α) (m : List β) (hl : l.length = m.length)
    (h : ∀ i (h1 : i < l.length) (h2 : i < m.length), R l[i] m[i]) : List.Forall₂ R l m := by
  induction l generalizing m with
  | nil => cases m with
    | nil => exact .nil
    | cons => simp at hl
  | cons a l ih => cases m with
    | nil => simp at hl
    | cons b m =>
      refine .cons (h 0 (by simp) (by simp)) (ih m (by simpa using hl) fun i h1 h2 => ?_)
      exact h (i + 1) (by simpa using h1) (by simpa using h2)

/-- C84: with automatic width all lines of the file, the header included, have the same length: the sum of
the column widths and the delimiters between them. -/
theorem C84_aligned (o : OutFmt) (args : List Col) (r : Nat) (ha : o.autoWidth = true) (hwf : ∀ a ∈ args, a.WF)
    (hr : ∀ a ∈ args, a.rows = r) (hn : args ≠ []) (hh : o.header = [] ∨ o.header.length = ncols args) :
    ∃ (ls : List Str) (W : Nat), writeTable o args = .ok ((ls.map (· ++ ['\n'])).flatten) ∧
      ls.length = r + (if o.header = [] then 0 else 1) ∧ ∀ l ∈ ls, l.length = W := by
  have hlen : ∀ i < r, (tableRow args i).length = ncols args := fun i hi =>
    (lineCells_ok fun a ha => ⟨hwf a ha, by rw [hr a ha]; exact hi⟩).2
  refine ⟨_, (widths o args r).sum + ((widths o args r).length - 1) * o.delim.length,
    writeTable_ok o args r hn hwf hr hh, ?_, ?_⟩
  · unfold outLines; split <;> simp <;> omega
  · intro l hl
    unfold outLines at hl
    have hwid : ∀ j (hj : j < (widths o args r).length), (widths o args r)[j] = colWidth o ((List.range r).map fun i =>
        aligned (tableRow args i) (List.replicate (ncols args) o.minWidth)) j o.minWidth := by
      intro j hj
      simp [widths, ha]
    rcases List.mem_append.1 hl with hl | hl
    · split at hl
      · simp at hl
      · rename_i hne
        obtain rfl : l = headLine o (widths o args r) := by simpa using hl
        have hhl := hh.resolve_left hne
        have hle : ∀ j (h1 : j < o.header.length) (h2 : j < (widths o args r).length),
            o.header[j].length + (if j = 0 then o.headerChars.length else 0) ≤ (widths o args r)[j] := by
          intro j h1 h2
          rw [hwid j h2]
          simp only [colWidth, if_neg hne]
          rw [List.getD_eq_getElem?_getD, List.getElem?_eq_getElem h1, Option.getD_some]
          exact Nat.le_max_right _ _
        have hl2 : o.header.length = (widths o args r).length := by rw [widths_length, hhl]
        unfold headLine
        revert hle hl2
        generalize widths o args r = cw
        intro hle hl2
        cases cw with
        | nil => simp at hl2; exact absurd hl2 hne
        | cons w cw =>
          have h0 := hle 0 (by rw [hl2]; simp) (by simp)
          simp only [if_true, List.getElem_cons_zero] at h0
          have hge : w ≥ o.headerChars.length := by omega
          simp only [headWidths, if_pos hge]
          rw [List.length_append, intercalate_length _ _ ((w - o.headerChars.length) :: cw)]
          · simp only [List.sum_cons, List.length_cons]; omega
          · refine aligned_lengths _ _ (forall2_of_getElem _ _ (by simpa using hl2) ?_)
            intro j h1 h2
            cases j with
            | zero => simp only [List.getElem_cons_zero]; omega
            | succ j =>
              have := hle (j + 1) h1 (by simpa using h2)
              simpa using this
    · obtain ⟨i, hi, rfl⟩ := List.mem_map.1 hl
      rw [List.mem_range] at hi
      rw [intercalate_length _ _ (widths o args r)]
      have hcl : (cached o args i).length = ncols args := by
        simp [cached, ha, aligned, hlen i hi]
      refine aligned_lengths _ _ (forall2_of_getElem _ _ (by rw [hcl, widths_length]) ?_)
      intro j h1 h2
      rw [hwid j h2]
      have h3 : cached o args i ∈ (List.range r).map fun i => aligned (tableRow args i) (List.replicate (ncols args) o.minWidth) := by
        simp only [cached, ha, if_true]
        exact List.mem_map.2 ⟨i, by simpa using hi, rfl⟩
      have h4 := (foldl_max_ge (fun row => (row.getD j []).length) _ o.minWidth).2 _ h3
      simp only [List.getD_eq_getElem?_getD, List.getElem?_eq_getElem h1, Option.getD_some] at h4
      unfold colWidth
      simp only
      split
      · exact h4
      · exact Nat.le_trans h4 (Nat.le_max_left _ _)

end Verif.Io
