import Verif.Io.FitsTableLemmas
import Verif.Str.TrimProps
import Mathlib.Data.List.TakeWhile
/-!
# C125: columns of FITS tables

Vectors written in a table are read back with the same elements and dimensions, other columns are not affected, and so on.
-/
namespace Verif.FitsTable
open Verif Verif.Str Verif.Core

variable {α : Type}

/-- the vector has as many elements as its dimensions say -/
def Shaped (v : Vec α) : Prop := v.dims ≠ [] ∧ v.data.length = v.dims.prod

/-- tables in which columns are only added: a column-oriented table has one row, and a row-oriented table without columns has none -/
def Inv (f : Format) (t : Tbl α) : Prop := match f with
  | .column => t.nrow = 1
  | .row => t.cols = [] → t.nrow = 0

/-- the table has no column of that name -/
def Free (t : Tbl α) (name : Str) : Prop := ∀ c ∈ t.cols, upper c.name ≠ upper name

theorem inv_new (f : Format) : Inv f (newTable f : Tbl α) := by
  cases f
  · rfl
  · intro _; rfl

/-- the number of rows once a vector is written -/
def rowsAfter (f : Format) (t : Tbl α) (dims : List Nat) : Nat :=
  if f = .column ∨ t.cols ≠ [] then t.nrow else if 0 ∈ dims.tail then 0 else dims.headD 0

/-- the column of a vector -/
def colOf (f : Format) (name : Str) (e : ET) (v : Vec α) : Col α := ⟨upper name, writtenAs e, tdimOf (getDims f v.dims).1, v.data⟩

theorem prod_eq_zero {l : List Nat} : l.prod = 0 ↔ 0 ∈ l := by
  induction l with
  | nil => simp
  | cons a l ih =>
    rw [List.prod_cons, Nat.mul_eq_zero, ih, List.mem_cons]
    constructor
    · rintro (h | h)
      · exact Or.inl h.symm
      · exact Or.inr h
    · rintro (h | h)
      · exact Or.inl h.symm
      · exact Or.inr h

theorem prod_reverse (l : List Nat) : l.reverse.prod = l.prod := List.prod_reverse l

theorem tdimOf_ne {l : List Nat} (h : l ≠ []) : tdimOf l = l := if_neg h

theorem write_form (z : α) (f : Format) (t : Tbl α) (name : Str) (e : ET) (v : Vec α) (hi : Inv f t) (hs : Shaped v) (he : e ≠ .string)
    (hr : f = .row → t.cols ≠ [] → v.dims.headD 0 = t.nrow) :
    writeColumn z f t name e v = .ok ⟨rowsAfter f t v.dims, t.cols ++ [colOf f name e v]⟩ := by
  obtain ⟨hd, hl⟩ := hs
  obtain ⟨d, ds, hds⟩ := List.exists_cons_of_ne_nil hd
  have hk : ∀ l : List α, (⟨upper name, writtenAs e, tdimOf (getDims f v.dims).1, l⟩ : Col α).count = (getDims f v.dims).1.prod := fun l => by
    rw [count_eq (writtenAs_string he), tdimOf_prod]
  have hcheck : t.cols ≠ [] ∧ f = .row → (getDims f v.dims).2 = t.nrow := by
    rintro ⟨h1, h2⟩
    subst h2
    exact hr rfl h1
  have hc : createCol z f t name (writtenAs e) (getDims f v.dims).1 (getDims f v.dims).2 =
      .ok (insertCol z t (upper name) (writtenAs e) (tdimOf (getDims f v.dims).1)) := by
    unfold createCol
    rw [Res.check_pos hcheck, Res.ok_bind]
  simp only [writeColumn, hc, Res.ok_bind]
  by_cases hv : v.data = []
  · rw [if_pos hv]
    have h0 : v.dims.prod = 0 := by rw [← hl, hv]; rfl
    simp only [insertCol, hk, Res.ok.injEq, Tbl.mk.injEq, colOf, hv]
    rw [hds, List.prod_cons] at h0
    cases f with
    | column =>
      simp only [Inv] at hi
      refine ⟨by simp [rowsAfter], ?_⟩
      simp only [getDims, prod_reverse, hi, Nat.one_mul]
      rw [hds, List.prod_cons, h0]
      rfl
    | row =>
      by_cases hcl : t.cols = []
      · have hn := hi hcl
        refine ⟨?_, by rw [hn, Nat.zero_mul]; rfl⟩
        rw [rowsAfter, if_neg (by simp [hcl]), hn, hds, List.tail_cons, List.headD_cons]
        by_cases hh : 0 ∈ ds
        · rw [if_pos hh]
        · rw [if_neg hh]
          rcases Nat.mul_eq_zero.1 h0 with h | h
          · exact h.symm
          · exact absurd (prod_eq_zero.1 h) hh
      · refine ⟨by simp [rowsAfter, hcl], ?_⟩
        rw [← hr rfl hcl, hds]
        simp only [getDims, prod_reverse, List.headD_cons, List.tail_cons]
        rw [h0]
        rfl
  · rw [if_neg hv]
    have h0 : v.dims.prod ≠ 0 := by rw [← hl]; simpa using hv
    have hpos : 0 < (getDims f v.dims).1.prod := by
      rw [hds, List.prod_cons, Nat.mul_ne_zero_iff] at h0
      cases f with
      | column => simp only [getDims, prod_reverse, hds, List.prod_cons]; exact Nat.pos_of_ne_zero (Nat.mul_ne_zero h0.1 h0.2)
      | row => simp only [getDims, prod_reverse, hds, List.tail_cons]; exact Nat.pos_of_ne_zero h0.2
    have hlen : v.data.length = (getDims f v.dims).2 * (⟨upper name, writtenAs e, tdimOf (getDims f v.dims).1, []⟩ : Col α).count := by
      rw [hk, hl]
      cases f with
      | column => simp only [getDims, prod_reverse, Nat.one_mul]
      | row => simp only [getDims, prod_reverse, hds, List.prod_cons, List.headD_cons, List.tail_cons]
    rw [insert_write z t _ _ _ v.data _ hlen (by rw [hk]; exact hpos)]
    have hrow : max t.nrow (getDims f v.dims).2 = rowsAfter f t v.dims ∧ max t.nrow (getDims f v.dims).2 = (getDims f v.dims).2 ∧
        (extend z t (getDims f v.dims).2).cols = t.cols := by
      cases f with
      | column =>
        simp only [Inv] at hi
        refine ⟨by simp [getDims, rowsAfter, hi], by simp [getDims, hi], ?_⟩
        rw [extend_self z t _ (by simp [getDims, hi])]
      | row =>
        by_cases hcl : t.cols = []
        · have hn := hi hcl
          refine ⟨?_, by simp [getDims, hn], by simp [extend, hcl]⟩
          rw [rowsAfter, if_neg (by simp [hcl]), if_neg, hn]
          · simp [getDims]
          · intro hh
            rw [hds, List.tail_cons] at hh
            rw [hds, List.prod_cons, prod_eq_zero.2 hh] at h0
            exact h0 rfl
        · have hh := hr rfl hcl
          refine ⟨by simp [rowsAfter, hcl, getDims, ← hh], by simp [getDims, ← hh], ?_⟩
          rw [extend_self z t _ (by simp [getDims, ← hh])]
    rw [hrow.2.1, hrow.2.2, Nat.sub_self, Nat.zero_mul, List.replicate_zero, List.append_nil, ← hrow.1, hrow.2.1]
    rfl

theorem write_abort (z : α) (t : Tbl α) (name : Str) (e : ET) (v : Vec α) (h1 : t.cols ≠ []) (h2 : v.dims.headD 0 ≠ t.nrow) :
    writeColumn z .row t name e v = .abort := by
  have : createCol z .row t name (writtenAs e) (getDims .row v.dims).1 (getDims .row v.dims).2 = .abort := by
    unfold createCol
    rw [Res.check_neg]
    · rfl
    · intro h
      exact h2 (h ⟨h1, rfl⟩)
  simp only [writeColumn, this]
  rfl

theorem write_ok (z : α) (f : Format) (t t' : Tbl α) (name : Str) (e : ET) (v : Vec α) (hi : Inv f t) (hs : Shaped v) (he : e ≠ .string)
    (hw : writeColumn z f t name e v = .ok t') :
    t' = ⟨rowsAfter f t v.dims, t.cols ++ [colOf f name e v]⟩ ∧ (f = .row → t.cols ≠ [] → v.dims.headD 0 = t.nrow) := by
  have hr : f = .row → t.cols ≠ [] → v.dims.headD 0 = t.nrow := by
    rintro rfl h
    by_contra hne
    rw [write_abort z t name e v h hne] at hw
    cases hw
  rw [write_form z f t name e v hi hs he hr] at hw
  cases hw
  exact ⟨rfl, hr⟩

/-- a vector is refused only if its first dimension is not the number of rows of a row-oriented table with columns -/
theorem C125_write (z : α) (f : Format) (t : Tbl α) (name : Str) (e : ET) (v : Vec α) (hi : Inv f t) (hs : Shaped v) (he : e ≠ .string) :
    (f = .row ∧ t.cols ≠ [] ∧ v.dims.headD 0 ≠ t.nrow → writeColumn z f t name e v = .abort) ∧
    (¬ (f = .row ∧ t.cols ≠ [] ∧ v.dims.headD 0 ≠ t.nrow) → ∃ t', writeColumn z f t name e v = .ok t' ∧ Inv f t' ∧
      t'.cols.length = t.cols.length + 1) := by
  constructor
  · rintro ⟨rfl, h1, h2⟩
    exact write_abort z t name e v h1 h2
  · intro h
    refine ⟨_, write_form z f t name e v hi hs he ?_, ?_, by simp⟩
    · intro h1 h2
      by_contra h3
      exact h ⟨h1, h2, h3⟩
    · cases f with
      | column => simpa [Inv, rowsAfter] using hi
      | row => intro h; simp at h

/-- what is read in the column of a vector -/
theorem readLook_colOf (f : Format) (o : Opts) (nrow : Nat) (name : Str) (e : ET) (v : Vec α) (z : α) (hs : Shaped v) (he : e ≠ .string)
    (hr : f = .row → nrow = v.dims.headD 0 ∧ v.dims.tail ≠ [1]) :
    readLook f o nrow (colOf f name e v) e v.dims.length z = .ok (some v) := by
  obtain ⟨hd, hl⟩ := hs
  obtain ⟨d, ds, hds⟩ := List.exists_cons_of_ne_nil hd
  have ht : checkType o e (writtenAs e) = true := by
    unfold checkType
    cases e <;> cases o.narrow <;> rfl
  have hax : axesOf f (⟨nrow, []⟩ : Tbl α) (colOf f name e v) = v.dims.reverse := by
    cases f with
    | column =>
      exact tdimOf_ne (by simpa [getDims] using hd)
    | row =>
      obtain ⟨h1, h2⟩ := hr rfl
      show (if tdimOf v.dims.tail.reverse = [1] ∧ writtenAs e ≠ CT.string then [nrow] else tdimOf v.dims.tail.reverse ++ [nrow]) = v.dims.reverse
      rw [hds, List.tail_cons] at h2
      rw [hds, List.headD_cons] at h1
      rw [hds, List.tail_cons]
      by_cases hn : ds = []
      · subst hn
        rw [if_pos ⟨rfl, writtenAs_string he⟩, h1]
        rfl
      · rw [tdimOf_ne (by simpa using hn : ds.reverse ≠ []), if_neg]
        · simp [h1]
        · rintro ⟨h, -⟩
          exact h2 (by rw [← List.reverse_reverse ds, h]; rfl)
  have hck : checkDim o v.dims.reverse.length v.dims.length = true := by
    unfold checkDim
    rw [List.length_reverse, if_neg (by omega), if_neg (by omega)]
  have hrz : resizeDims v.dims.reverse v.dims.length = v.dims := by
    rw [resize_eq (by simp)]
    simp
  unfold readLook
  simp only [hax, hrz]
  rw [show (colOf f name e v).type = writtenAs e from rfl, Res.check_pos ht, Res.ok_bind, Res.check_pos hck, Res.ok_bind]
  by_cases h0 : v.dims.prod = 0
  · rw [if_pos h0]
    have : v.data = [] := List.eq_nil_of_length_eq_zero (by omega)
    rw [← this]
  · rw [if_neg h0, if_neg]
    · have hk : (colOf f name e v).count = (getDims f v.dims).1.prod := by
        rw [colOf, count_eq (writtenAs_string he), tdimOf_prod]
      have hpos : 1 ≤ (colOf f name e v).count := by
        rw [hk]
        have h0 : v.dims.prod ≠ 0 := h0
        rw [hds, List.prod_cons, Nat.mul_ne_zero_iff] at h0
        cases f with
        | column => simp only [getDims, prod_reverse, hds, List.prod_cons]; exact Nat.pos_of_ne_zero (Nat.mul_ne_zero h0.1 h0.2)
        | row => simp only [getDims, prod_reverse, hds, List.tail_cons]; exact Nat.pos_of_ne_zero h0.2
      unfold readData
      rw [if_neg (by omega), if_pos (by simp [colOf, hl])]
      simp only [Res.ok_bind, Nat.sub_self, Nat.zero_mul, Nat.zero_add, List.drop_zero]
      rw [← hl, show (colOf f name e v).data = v.data from rfl, List.take_length]
    · cases f with
      | column => simp [rowsOf]
      | row =>
        simp only [rowsOf, (hr rfl).1, hds, List.headD_cons]
        intro h
        rw [hds, h, List.prod_cons, Nat.zero_mul] at h0
        exact h0 rfl

/-- a vector that was written is read back with the same dimensions and elements, if the name is new and, in a row-oriented table, (i) its
dimensions after the first are not exactly one dimension of size 1, and (ii) they are not null if it is the first column. These conditions are necessary:
see `C125_ones_refuted` and `C125_empty_refuted`. -/
theorem C125_roundtrip_partial (z : α) (f : Format) (o : Opts) (t t' : Tbl α) (name : Str) (e : ET) (v : Vec α) (hi : Inv f t) (hs : Shaped v)
    (he : e ≠ .string) (hf : Free t name) (h1 : f = .row → v.dims.tail ≠ [1]) (h2 : f = .row → t.cols = [] → 0 ∉ v.dims.tail)
    (hw : writeColumn z f t name e v = .ok t') : readColumn f o t' name e v.dims.length z = .ok (some v) := by
  obtain ⟨rfl, hr⟩ := write_ok z f t t' name e v hi hs he hw
  rw [readColumn_eq, lookup_new hf (by simp [colOf, upper_upper])]
  simp only
  apply readLook_colOf f o _ name e v z hs he
  rintro rfl
  refine ⟨?_, h1 rfl⟩
  unfold rowsAfter
  by_cases hcl : t.cols = []
  · rw [if_neg (by simp [hcl]), if_neg (h2 rfl hcl)]
  · rw [if_pos (Or.inr hcl)]
    exact (hr rfl hcl).symm

/-- whatever is read under another name does not change -/
theorem C125_others (z : α) (f : Format) (o : Opts) (t t' : Tbl α) (name name' : Str) (e e' : ET) (v : Vec α) (dim : Nat) (hi : Inv f t)
    (hs : Shaped v) (he : e ≠ .string) (hn : upper name' ≠ upper name) (hw : writeColumn z f t name e v = .ok t') :
    readColumn f o t' name' e' dim z = readColumn f o t name' e' dim z := by
  obtain ⟨rfl, hr⟩ := write_ok z f t t' name e v hi hs he hw
  rw [readColumn_eq, readColumn_eq, lookup_append (by simpa [colOf, upper_upper] using fun h => hn h.symm)]
  by_cases hcl : t.cols = []
  · have : lookup t name' = none := by simp [lookup, hcl]
    rw [this]
  · simp [rowsAfter, hcl]

/-- columns written one after the other -/
def writeAll (z : α) (f : Format) (t : Tbl α) : List (Str × ET × Vec α) → Res (Tbl α)
  | [] => .ok t
  | x :: xs => do
    let t ← writeColumn z f t x.1 x.2.1 x.2.2
    writeAll z f t xs

/-- the vectors that can be written in a row-oriented table of `n` rows, and be read -/
def Good (f : Format) (n : Nat) (x : Str × ET × Vec α) : Prop :=
  Shaped x.2.2 ∧ x.2.1 ≠ .string ∧ (f = .row → x.2.2.dims.headD 0 = n ∧ x.2.2.dims.tail ≠ [1])

theorem writeAll_spec (z : α) (f : Format) (n : Nat) (l : List (Str × ET × Vec α)) : ∀ t : Tbl α, Inv f t → (f = .row → t.cols ≠ [] → t.nrow = n) →
    (∀ x ∈ l, Good f n x ∧ Free t x.1) → l.Pairwise (fun x y => upper x.1 ≠ upper y.1) →
    (f = .row → t.cols = [] → ∀ x ∈ l.head?, 0 ∉ x.2.2.dims.tail) →
    ∃ t', writeAll z f t l = .ok t' ∧ Inv f t' ∧ (f = .row → t'.cols ≠ [] → t'.nrow = n) ∧ t'.cols.length = t.cols.length + l.length ∧
      (∀ o, ∀ x ∈ l, readColumn f o t' x.1 x.2.1 x.2.2.dims.length z = .ok (some x.2.2)) ∧
      (∀ o name e dim, (∀ x ∈ l, upper name ≠ upper x.1) → readColumn f o t' name e dim z = readColumn f o t name e dim z) := by
  induction l with
  | nil => intro t hi hn _ _ _; exact ⟨t, rfl, hi, hn, rfl, by simp, by simp⟩
  | cons x xs ih =>
    intro t hi hn hg hp h0
    obtain ⟨⟨hs, he, hrow⟩, hfree⟩ := hg x List.mem_cons_self
    have hr : f = .row → t.cols ≠ [] → x.2.2.dims.headD 0 = t.nrow := by
      intro h h'
      rw [hn h h', (hrow h).1]
    have hw := write_form z f t x.1 x.2.1 x.2.2 hi hs he hr
    set t1 : Tbl α := ⟨rowsAfter f t x.2.2.dims, t.cols ++ [colOf f x.1 x.2.1 x.2.2]⟩ with ht1
    have hi1 : Inv f t1 := by
      cases f with
      | column => simpa [Inv, rowsAfter, ht1] using hi
      | row => intro h; simp [ht1] at h
    have hn1 : f = .row → t1.cols ≠ [] → t1.nrow = n := by
      intro h _
      rw [ht1]
      simp only [rowsAfter]
      by_cases hcl : t.cols = []
      · rw [if_neg (by simp [hcl, h]), if_neg (h0 h hcl x (by simp)), (hrow h).1]
      · rw [if_pos (Or.inr hcl), hn h hcl]
    have hg1 : ∀ y ∈ xs, Good f n y ∧ Free t1 y.1 := by
      intro y hy
      refine ⟨(hg y (List.mem_cons_of_mem _ hy)).1, ?_⟩
      intro c hc
      rw [ht1] at hc
      rcases List.mem_append.1 hc with h | h
      · exact (hg y (List.mem_cons_of_mem _ hy)).2 c h
      · rw [List.mem_singleton] at h
        subst h
        simpa [colOf, upper_upper] using (List.pairwise_cons.1 hp).1 y hy
    obtain ⟨t2, h2, hi2, hn2, hl2, hread, hoth⟩ := ih t1 hi1 hn1 hg1 (List.pairwise_cons.1 hp).2 (by intro _ h; simp [ht1] at h)
    refine ⟨t2, ?_, hi2, hn2, ?_, ?_, ?_⟩
    · simp only [writeAll, hw, Res.ok_bind, h2]
    · rw [hl2, ht1]
      simp only [List.length_append, List.length_cons, List.length_nil]
      omega
    · intro o y hy
      rcases List.mem_cons.1 hy with rfl | hy
      · rw [hoth o _ _ _ (fun z hz => (List.pairwise_cons.1 hp).1 z hz)]
        exact C125_roundtrip_partial z f o t t1 _ _ _ hi hs he hfree (fun h => (hrow h).2) (fun h h' => h0 h h' y (by simp)) hw
      · exact hread o y hy
    · intro o name e dim hne
      rw [hoth o name e dim (fun y hy => hne y (List.mem_cons_of_mem _ hy))]
      exact C125_others z f o t t1 x.1 name x.2.1 e x.2.2 dim hi hs he (hne x List.mem_cons_self) hw

/-- all the columns written in a new table are read back, also if the file is closed and opened again, unless the table is row-oriented and has a single
row (see `C125_reopen_refuted`). -/
theorem C125_table_partial (z : α) (f : Format) (n : Nat) (l : List (Str × ET × Vec α)) (hg : ∀ x ∈ l, Good f n x)
    (hp : l.Pairwise (fun x y => upper x.1 ≠ upper y.1)) (h0 : f = .row → ∀ x ∈ l.head?, 0 ∉ x.2.2.dims.tail) :
    ∃ t, writeAll z f (newTable f) l = .ok t ∧ t.cols.length = l.length ∧
      (∀ o, ∀ x ∈ l, readColumn f o t x.1 x.2.1 x.2.2.dims.length z = .ok (some x.2.2)) ∧
      (∀ name, (∀ x ∈ l, upper name ≠ upper x.1) → ∀ o e dim, readColumn f o t name e dim z = if o.missing then .ok none else .abort) ∧
      ((f = .row → n ≠ 1) → ∀ o, ∀ x ∈ l, readColumn (formatOf t) o t x.1 x.2.1 x.2.2.dims.length z = .ok (some x.2.2)) := by
  obtain ⟨t, h1, h2, h3, h4, h5, h6⟩ := writeAll_spec z f n l (newTable f) (inv_new f) (by intro _ h; simp [newTable] at h)
    (fun x hx => ⟨hg x hx, by intro c hc; simp [newTable] at hc⟩) hp (fun h _ => h0 h)
  refine ⟨t, h1, by simpa [newTable] using h4, h5, ?_, ?_⟩
  · intro name hne o e dim
    rw [h6 o name e dim hne, readColumn_eq]
    rfl
  · intro hn o x hx
    have hne : t.cols ≠ [] := by
      intro h
      rw [h] at h4
      have : 0 < l.length := List.length_pos_of_mem hx
      simp [newTable] at h4
      omega
    have : formatOf t = f := by
      unfold formatOf
      cases f with
      | column =>
        simp only [Inv] at h2
        rw [if_neg]
        rintro ⟨-, h⟩
        omega
      | row =>
        have := h3 rfl hne
        have := hn rfl
        rw [if_pos ⟨hne, by omega⟩]
    rw [this]
    exact h5 o x hx

/-! ### Removal and update -/

theorem remove_eq {t : Tbl α} {name : Str} {c : Col α} (h : lookup t name = some c) :
    ∃ l₁ l₂, t.cols = l₁ ++ c :: l₂ ∧ removeColumn t name = ⟨t.nrow, l₁ ++ l₂⟩ ∧ upper c.name = upper name ∧
      ∀ d ∈ l₁ ++ l₂, upper d.name ≠ upper name := by
  obtain ⟨i, h1, h2⟩ := colnum_of_lookup h
  obtain ⟨hlt, hget⟩ := List.getElem?_eq_some_iff.1 h2
  refine ⟨t.cols.take i, t.cols.drop (i + 1), ?_, ?_, ?_⟩
  · rw [← hget, ← List.drop_eq_getElem_cons hlt, List.take_append_drop]
  · simp only [removeColumn, h1, List.eraseIdx_eq_take_drop_succ]
  · have hsplit : t.cols = t.cols.take i ++ c :: t.cols.drop (i + 1) := by
      rw [← hget, ← List.drop_eq_getElem_cons hlt, List.take_append_drop]
    unfold lookup at h
    split at h
    · next d hd =>
      cases h
      have hm : upper c.name = upper name := by
        have : c ∈ t.cols.filter (fun c => upper c.name = upper name) := by rw [hd]; simp
        simpa using (List.mem_filter.1 this).2
      refine ⟨hm, ?_⟩
      rw [hsplit, List.filter_append, List.filter_cons_of_pos (by simpa using hm)] at hd
      have hlen := congrArg List.length hd
      simp only [List.length_append, List.length_cons, List.length_nil] at hlen
      have e1 : (t.cols.take i).filter (fun c => upper c.name = upper name) = [] := List.eq_nil_of_length_eq_zero (by omega)
      have e2 : (t.cols.drop (i + 1)).filter (fun c => upper c.name = upper name) = [] := List.eq_nil_of_length_eq_zero (by omega)
      intro x hx
      rcases List.mem_append.1 hx with hx | hx
      · simpa using List.filter_eq_nil_iff.1 e1 x hx
      · simpa using List.filter_eq_nil_iff.1 e2 x hx
    · cases h

theorem remove_none {t : Tbl α} {name : Str} (h : lookup t name = none) : removeColumn t name = t := by
  simp only [removeColumn, colnum_eq_none.2 h]

theorem lookup_remove_other {t : Tbl α} {name name' : Str} (h : upper name' ≠ upper name) : lookup (removeColumn t name) name' = lookup t name' := by
  cases hl : lookup t name with
  | none => rw [remove_none hl]
  | some c =>
    obtain ⟨l₁, l₂, h1, h2, h3, -⟩ := remove_eq hl
    rw [h2]
    unfold lookup
    simp only [h1, List.filter_append]
    rw [List.filter_cons_of_neg (by simpa [h3] using fun h' => h h'.symm)]

theorem nrow_remove (t : Tbl α) (name : Str) : (removeColumn t name).nrow = t.nrow := by
  unfold removeColumn
  split <;> rfl

/-- a column that is removed is no longer found, and what is read under other names does not change -/
theorem C125_remove (f : Format) (o : Opts) (t : Tbl α) (name : Str) (z : α) :
    (∀ e dim, (lookup t name).isSome → readColumn f o (removeColumn t name) name e dim z = if o.missing then .ok none else .abort) ∧
    (∀ name' e dim, upper name' ≠ upper name → readColumn f o (removeColumn t name) name' e dim z = readColumn f o t name' e dim z) := by
  constructor
  · intro e dim h
    obtain ⟨c, hc⟩ := Option.isSome_iff_exists.1 h
    obtain ⟨l₁, l₂, -, h2, -, h4⟩ := remove_eq hc
    have : lookup (removeColumn t name) name = none := by
      rw [h2]
      unfold lookup
      rw [List.filter_eq_nil_iff.2]
      intro c hc
      simpa using h4 c hc
    rw [readColumn_eq, this]
  · intro name' e dim h
    rw [readColumn_eq, readColumn_eq, lookup_remove_other h, nrow_remove]

/-- a column that is updated has the new vector, and what is read under other names does not change. In a row-oriented table this
needs another column: see `C125_update_refuted`. -/
theorem C125_update_partial (z : α) (f : Format) (o : Opts) (t t' : Tbl α) (name : Str) (e : ET) (v : Vec α) (hi : Inv f t) (hs : Shaped v)
    (he : e ≠ .string) (hf : Free t name ∨ (lookup t name).isSome) (h1 : f = .row → v.dims.tail ≠ [1] ∧ 2 ≤ t.cols.length)
    (hw : updateColumn z f t name e v = .ok t') : readColumn f o t' name e v.dims.length z = .ok (some v) ∧
      ∀ name' e' dim, upper name' ≠ upper name → readColumn f o t' name' e' dim z = readColumn f o t name' e' dim z := by
  have hlen : f = .row → (removeColumn t name).cols ≠ [] := by
    intro h hc
    have := (h1 h).2
    cases hl : lookup t name with
    | none => rw [remove_none hl] at hc; rw [hc] at this; simp at this
    | some c =>
      obtain ⟨l₁, l₂, e1, e2, -, -⟩ := remove_eq hl
      rw [e2] at hc
      simp only [List.append_eq_nil_iff] at hc
      rw [e1, hc.1, hc.2] at this
      simp at this
  have hi' : Inv f (removeColumn t name) := by
    cases f with
    | column => simpa [Inv, nrow_remove] using hi
    | row => intro h; exact absurd h (hlen rfl)
  have hfree : Free (removeColumn t name) name := by
    rcases hf with hf | hf
    · have : lookup t name = none := by
        unfold lookup
        rw [List.filter_eq_nil_iff.2]
        intro c hc
        simpa using hf c hc
      rw [remove_none this]
      exact hf
    · obtain ⟨c, hc⟩ := Option.isSome_iff_exists.1 hf
      obtain ⟨l₁, l₂, -, h2, -, h4⟩ := remove_eq hc
      rw [h2]
      exact h4
  refine ⟨C125_roundtrip_partial z f o _ t' name e v hi' hs he hfree (fun h => (h1 h).1) (fun h h' => absurd h' (hlen h)) hw, ?_⟩
  intro name' e' dim hne
  rw [C125_others z f o _ t' name name' e e' v dim hi' hs he hne hw]
  exact (C125_remove f o t name z).2 name' e' dim hne

/-! ### Space that is allocated -/

theorem getDims_prod (f : Format) (dims : List Nat) (h : dims ≠ []) : (getDims f dims).2 * (getDims f dims).1.prod = dims.prod := by
  obtain ⟨d, ds, rfl⟩ := List.exists_cons_of_ne_nil h
  cases f with
  | column => simp only [getDims, prod_reverse, Nat.one_mul]
  | row => simp only [getDims, prod_reverse, List.headD_cons, List.tail_cons, List.prod_cons]

/-- `allocate_column` is the same as writing a vector of zeros, but also creates the rows of a first column without elements -/
theorem C125_allocate_partial (z : α) (f : Format) (o : Opts) (t t' : Tbl α) (name : Str) (e : ET) (dims : List Nat) (hi : Inv f t) (hd : dims ≠ [])
    (he : e ≠ .string) (hf : Free t name) (h1 : f = .row → dims.tail ≠ [1]) (hw : allocateColumn z f t name e dims = .ok t') :
    readColumn f o t' name e dims.length z = .ok (some ⟨List.replicate dims.prod z, dims⟩) ∧
      ∀ name' e' dim, upper name' ≠ upper name → readColumn f o t' name' e' dim z = readColumn f o t name' e' dim z := by
  have hk : ∀ l : List α, (⟨upper name, writtenAs e, tdimOf (getDims f dims).1, l⟩ : Col α).count = (getDims f dims).1.prod := fun l => by
    rw [count_eq (writtenAs_string he), tdimOf_prod]
  set v : Vec α := ⟨List.replicate dims.prod z, dims⟩ with hv
  have key : ∃ n, t' = ⟨n, t.cols ++ [colOf f name e v]⟩ ∧ (t.cols ≠ [] → n = t.nrow) ∧ (f = .row → n = dims.headD 0) := by
    simp only [allocateColumn, createCol] at hw
    by_cases hc : t.cols ≠ [] ∧ f = .row → (getDims f dims).2 = t.nrow
    · rw [Res.check_pos hc, Res.ok_bind, Res.ok_bind] at hw
      have hprod := getDims_prod f dims hd
      by_cases hb : f = .row ∧ t.cols = []
      · rw [if_pos hb] at hw
        cases hw
        obtain ⟨rfl, hcl⟩ := hb
        have hn := hi hcl
        refine ⟨dims.headD 0, ?_, fun h => absurd hcl h, fun _ => rfl⟩
        simp only [extend, insertCol, hcl, hn, List.nil_append, List.map_cons, List.map_nil, hk, Nat.zero_add, Nat.zero_mul, List.replicate_zero,
          Nat.zero_max, Nat.sub_zero, colOf, hv]
        rw [show dims.headD 0 = (getDims .row dims).2 from rfl, hprod]
      · rw [if_neg hb] at hw
        cases hw
        have hnr : t.nrow = (getDims f dims).2 := by
          cases f with
          | column => exact hi
          | row => exact (hc ⟨fun h => hb ⟨rfl, h⟩, rfl⟩).symm
        refine ⟨t.nrow, ?_, fun _ => rfl, ?_⟩
        · simp only [insertCol, hk, colOf, hv]
          rw [hnr, hprod]
        · rintro rfl
          exact hnr
    · rw [Res.check_neg hc] at hw
      cases hw
  obtain ⟨n, rfl, hn1, hn2⟩ := key
  constructor
  · rw [readColumn_eq, lookup_new hf (by simp [colOf, upper_upper])]
    exact readLook_colOf f o n name e v z ⟨hd, by simp [hv]⟩ he (fun h => ⟨hn2 h, h1 h⟩)
  · intro name' e' dim hne
    rw [readColumn_eq, readColumn_eq, lookup_append (by simpa [colOf, upper_upper] using fun h => hne h.symm)]
    by_cases hcl : t.cols = []
    · have : lookup t name' = none := by simp [lookup, hcl]
      rw [this]
    · rw [hn1 hcl]

/-! ### Texts -/

theorem foldl_max_le (l : List Str) : ∀ a : Nat, a ≤ l.foldl (fun m s => max m s.length) a ∧ ∀ s ∈ l, s.length ≤ l.foldl (fun m s => max m s.length) a := by
  induction l with
  | nil => intro a; simp
  | cons x xs ih =>
    intro a
    obtain ⟨h1, h2⟩ := ih (max a x.length)
    refine ⟨by simp only [List.foldl_cons]; omega, ?_⟩
    intro s hs
    simp only [List.foldl_cons]
    rcases List.mem_cons.1 hs with rfl | hs
    · omega
    · exact h2 s hs

/-- texts are read back without the blanks at their ends, with the same dimensions; the column is wide enough for the longest. In a row-oriented table, the
dimensions after the first must not be null if it is the first column. -/
theorem C125_strings_partial (f : Format) (o : Opts) (t t' : Tbl Str) (name : Str) (v : Vec Str) (w : List Str) (hi : Inv f t) (hs : Shaped v)
    (hf : Free t name) (hz : ∀ s ∈ v.data, '\x00' ∉ s) (h2 : f = .row → t.cols = [] → 0 ∉ v.dims.tail)
    (hwd : w.length = v.data.length) (htr : ∀ (k : Nat) s r, v.data[k]? = some s → w[k]? = some r → IsTrim blanks s r)
    (hw : writeStrings f t name v = .ok t') :
    readStrings f o t' name v.dims.length = .ok (some ⟨w, v.dims⟩) ∧
      ∃ c, lookup t' name = some c ∧ ∀ s ∈ v.data, s.length ≤ c.tdim.headD 0 := by
  obtain ⟨hd, hl⟩ := hs
  obtain ⟨d, ds, hds⟩ := List.exists_cons_of_ne_nil hd
  have hm1 : 1 ≤ maxSize v.data := (foldl_max_le v.data 1).1
  set td : List Nat := maxSize v.data :: (getDims f v.dims).1 with htd
  have htdo : tdimOf td = td := by simp [tdimOf, htd]
  have hk : ∀ l : List Str, (⟨upper name, .string, td, l⟩ : Col Str).count = (getDims f v.dims).1.prod := fun l => count_string
  have hnul : v.data.map (fun s => s.takeWhile (· ≠ '\x00')) = v.data := by
    conv_rhs => rw [← List.map_id v.data]
    apply List.map_congr_left
    intro s hs
    rw [id, List.takeWhile_eq_self_iff]
    intro c hc
    simp only [decide_eq_true_eq, ne_eq]
    rintro rfl
    exact hz s hs hc
  have hprod := getDims_prod f v.dims hd
  -- the table
  have key : ∃ n, t' = ⟨n, t.cols ++ [⟨upper name, .string, td, v.data⟩]⟩ ∧ (f = .row → n = v.dims.headD 0) := by
    simp only [writeStrings, createCol] at hw
    by_cases hc : t.cols ≠ [] ∧ f = .row → (getDims f v.dims).2 = t.nrow
    · rw [Res.check_pos hc, Res.ok_bind, Res.ok_bind, ← htd, htdo, hnul] at hw
      by_cases hv : v.data = []
      · rw [if_pos hv] at hw
        cases hw
        have h0 : v.dims.prod = 0 := by rw [← hl, hv]; rfl
        have hz0 : t.nrow * (getDims f v.dims).1.prod = 0 ∧ (f = .row → t.nrow = v.dims.headD 0) := by
          cases f with
          | column =>
            simp only [Inv] at hi
            rw [hi]
            exact ⟨by rw [← h0, ← hprod]; rfl, by simp⟩
          | row =>
            by_cases hcl : t.cols = []
            · have hn := hi hcl
              have h3 := h2 rfl hcl
              rw [hds, List.prod_cons] at h0
              rw [hds, List.tail_cons] at h3
              refine ⟨by rw [hn, Nat.zero_mul], fun _ => ?_⟩
              rcases Nat.mul_eq_zero.1 h0 with h | h
              · rw [hn, hds, h]; rfl
              · exact absurd (prod_eq_zero.1 h) h3
            · have hn := hc ⟨hcl, rfl⟩
              exact ⟨by rw [← hn, hprod, h0], fun _ => hn.symm⟩
        refine ⟨t.nrow, ?_, hz0.2⟩
        simp only [insertCol, hk, hz0.1, hv, List.replicate_zero]
      · rw [if_neg hv] at hw
        have h0 : v.dims.prod ≠ 0 := by rw [← hl]; simpa using hv
        have hpos : 0 < (getDims f v.dims).1.prod := by
          rw [← hprod, Nat.mul_ne_zero_iff] at h0
          exact Nat.pos_of_ne_zero h0.2
        rw [insert_write [] t _ _ _ v.data (getDims f v.dims).2 (by rw [hk, hl, hprod]) (by rw [hk]; exact hpos)] at hw
        cases hw
        have hmax : max t.nrow (getDims f v.dims).2 = (getDims f v.dims).2 ∧ (extend [] t (getDims f v.dims).2).cols = t.cols := by
          cases f with
          | column =>
            simp only [Inv] at hi
            exact ⟨by simp [getDims, hi], by rw [extend_self [] t _ (by simp [getDims, hi])]⟩
          | row =>
            by_cases hcl : t.cols = []
            · exact ⟨by simp [hi hcl], by simp [extend, hcl]⟩
            · have hn := hc ⟨hcl, rfl⟩
              exact ⟨by rw [hn]; simp, by rw [extend_self [] t _ (by rw [hn])]⟩
        refine ⟨(getDims f v.dims).2, ?_, ?_⟩
        · rw [hmax.1, hmax.2, Nat.sub_self, Nat.zero_mul, List.replicate_zero, List.append_nil]
        · rintro rfl; rfl
    · rw [Res.check_neg hc] at hw
      cases hw
  obtain ⟨n, rfl, hn⟩ := key
  have hlook : lookup (⟨n, t.cols ++ [⟨upper name, .string, td, v.data⟩]⟩ : Tbl Str) name = some ⟨upper name, .string, td, v.data⟩ :=
    lookup_new hf (upper_upper name) n
  refine ⟨?_, _, hlook, fun s hs => (foldl_max_le v.data 1).2 s hs⟩
  obtain ⟨i, hi1, hi2⟩ := colnum_of_lookup hlook
  simp only [readStrings, hi1, hi2, readCol_eq hi2]
  have ht : checkType o .string .string = true := by unfold checkType; cases o.narrow <;> rfl
  rw [Res.check_pos ht, Res.ok_bind]
  have hax : axesOf f (⟨n, t.cols ++ [⟨upper name, .string, td, v.data⟩]⟩ : Tbl Str) ⟨upper name, .string, td, v.data⟩ = maxSize v.data :: v.dims.reverse := by
    cases f with
    | column => rfl
    | row =>
      simp only [axesOf, ne_eq, not_true_eq_false, and_false, if_false]
      rw [htd, hn rfl, hds]
      simp [getDims]
  rw [hax]
  have hrz : resizeStrings (maxSize v.data :: v.dims.reverse) v.dims.length = v.dims := by
    unfold resizeStrings
    apply List.ext_getElem?
    intro k
    by_cases hk : k < v.dims.length
    · rw [List.getElem?_map, List.getElem?_range hk, Option.map_some, if_neg (by simp),
        show v.dims.length - k = (v.dims.length - 1 - k) + 1 by omega, List.getD_cons_succ, List.getD_eq_getElem?_getD,
        List.getElem?_reverse (by omega), show v.dims.length - 1 - (v.dims.length - 1 - k) = k by omega, List.getElem?_eq_getElem hk]
      rfl
    · rw [List.getElem?_eq_none (by simpa using hk), List.getElem?_eq_none (by omega)]
  rw [hrz]
  have hck : (v.dims.length = 1 ∧ (maxSize v.data :: v.dims.reverse).length = 1) ∨
      checkDim o (maxSize v.data :: v.dims.reverse).length (v.dims.length + 1) = true := by
    right
    simp [checkDim]
  rw [Res.check_pos hck, Res.ok_bind]
  by_cases h0 : v.dims.prod = 0
  · rw [if_pos h0]
    have : w = [] := List.eq_nil_of_length_eq_zero (by omega)
    rw [this]
  · rw [if_neg h0, if_neg]
    · have hpos : 1 ≤ (⟨upper name, .string, td, v.data⟩ : Col Str).count := by
        rw [hk]
        have h0 : v.dims.prod ≠ 0 := h0
        rw [← hprod, Nat.mul_ne_zero_iff] at h0
        exact Nat.pos_of_ne_zero h0.2
      have hrd : readData (⟨upper name, .string, td, v.data⟩ : Col Str) 1 1 v.dims.prod = .ok v.data := by
        unfold readData
        rw [if_neg (by omega), if_pos (by simp [hl])]
        simp only [Nat.sub_self, Nat.zero_mul, Nat.zero_add, List.drop_zero]
        rw [← hl, List.take_length]
      rw [hrd, Res.ok_bind]
      have hmap : ∀ (a b : List Str), b.length = a.length → (∀ (k : Nat) s r, a[k]? = some s → b[k]? = some r → IsTrim blanks s r) →
          a.mapM (fun s => trim s blanks) = .ok b := by
        intro a
        induction a with
        | nil => intro b hb _; rw [List.eq_nil_of_length_eq_zero hb]; rfl
        | cons x xs ih =>
          intro b hb hall
          cases b with
          | nil => simp at hb
          | cons y ys =>
            obtain ⟨m, hm, hm'⟩ := C36_trim x blanks
            have : m = y := isTrim_unique hm' (hall 0 x y rfl rfl)
            subst this
            rw [List.mapM_cons, hm, Res.ok_bind, ih ys (by simpa using hb) (fun k s r h1 h2 => hall (k + 1) s r h1 h2), Res.ok_bind]
            rfl
      rw [hmap v.data w hwd htr, Res.ok_bind]
    · rintro (h | h)
      · cases f with
        | column => simp [rowsOf] at h
        | row =>
          simp only [rowsOf] at h
          rw [hn rfl, hds, List.headD_cons] at h
          rw [hds, h, List.prod_cons, Nat.zero_mul] at h0
          exact h0 rfl
      · rw [List.headD_cons] at h
        omega

end Verif.FitsTable
