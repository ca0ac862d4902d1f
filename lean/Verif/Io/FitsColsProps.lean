import Verif.Io.FitsCols
import Verif.Io.FitsTableProps
import Verif.Io.NameProps
/-!
# C178: several columns of FITS tables at once
-/
namespace Verif.FitsCols
open Verif Verif.Str Verif.Core Verif.FitsTable Verif.Io
variable {α : Type}

/-! ### The names -/

/-- Spec: the name of the column of an argument: its text without the blanks around it and without what precedes the first dot -/
def Name (v n : Str) : Prop := ∃ w, IsTrim [' ', '\t'] v w ∧ (('.' ∉ w ∧ n = w) ∨ ∃ a, w = a ++ '.' :: n ∧ '.' ∉ a)

/-- Spec: the column of an argument: a named one has its own name -/
inductive Column : Str → Arg α → Str × ET × Vec α → Prop
  | plain {v n : Str} {e : ET} {x : Vec α} : Name v n → Column v (.plain e x) (n, e, x)
  | named {v n : Str} {e : ET} {x : Vec α} : Column v (.named n e x) (n, e, x)

/-- Spec: the columns of the arguments -/
inductive Columns : List Str → List (Arg α) → List (Str × ET × Vec α) → Prop
  | nil : Columns [] [] []
  | cons {v vs a as x l} : Column v a x → Columns vs as l → Columns (v :: vs) (a :: as) (x :: l)

theorem first_dot {w : Str} (h : '.' ∈ w) : ∃ a b, w = a ++ '.' :: b ∧ '.' ∉ a := by
  induction w with
  | nil => simp at h
  | cons c w ih =>
    by_cases hc : c = '.'
    · exact ⟨[], w, by simp [hc], by simp⟩
    · obtain ⟨a, b, rfl, ha⟩ := ih (by simpa [Ne.symm hc] using h)
      exact ⟨c :: a, b, rfl, by simpa [Ne.symm hc] using ha⟩

theorem bake_name {v w : Str} (h : IsTrim [' ', '\t'] v w) : ∃ n, bakeName w = .ok n ∧ Name v n := by
  by_cases hd : '.' ∈ w
  · obtain ⟨a, b, rfl, ha⟩ := first_dot hd
    exact ⟨b, (C71_bake _).2 a b rfl ha, _, h, .inr ⟨a, rfl, ha⟩⟩
  · exact ⟨w, (C71_bake w).1 hd, w, h, .inl ⟨hd, rfl⟩⟩

/-- With the names of a macro, each argument is written, updated and read under the name of its text, as with a list of names and values. -/
theorem C178_names (vs : List Str) (args : List (Arg α)) (hl : vs.length = args.length) (h : ∀ v ∈ vs, Item v ∧ ∃ c ∈ v, c ≠ ' ' ∧ c ≠ '\t') :
    ∃ l, Columns vs args l ∧ ∀ (z : α) (f : Format) (o : Opts) (t : Tbl α),
      writeMacro z f (List.intercalate [','] vs) args t = writeList z f l t ∧
      updateMacro z f (List.intercalate [','] vs) args t = updateList z f l t ∧
      readMacro f o z t (List.intercalate [','] vs) args = readList f o z t l := by
  induction vs generalizing args with
  | nil =>
    cases args with
    | nil => exact ⟨[], .nil, fun z f o t => ⟨rfl, rfl, rfl⟩⟩
    | cons => simp at hl
  | cons v vs ih =>
    cases args with
    | nil => simp at hl
    | cons a as =>
      obtain ⟨l, hc, hl'⟩ := ih as (by simpa using hl) fun w hw => h w (by simp [hw])
      obtain ⟨h1, c, hc1, hc2⟩ := h v (by simp)
      have hcb : ∃ c ∈ v, c ∉ [' ', '\t'] := ⟨c, hc1, by simp [hc2]⟩
      have key : ∃ w, popName (List.intercalate [','] (v :: vs)) = .ok (w, List.intercalate [','] vs) ∧ IsTrim [' ', '\t'] v w := by
        cases vs with
        | nil =>
          obtain ⟨w, h2, h3⟩ := popName_ok v [] h1 hcb (.inl rfl)
          rw [List.append_nil] at h2
          exact ⟨w, by rw [List.intercalate_singleton, h2]; rfl, h3⟩
        | cons u us =>
          obtain ⟨w, h2, h3⟩ := popName_ok v (',' :: List.intercalate [','] (u :: us)) h1 hcb (.inr ⟨_, rfl⟩)
          refine ⟨w, ?_, h3⟩
          rw [List.intercalate_cons_cons]
          simpa using h2
      obtain ⟨w, hp, ht⟩ := key
      obtain ⟨n, hb, hn⟩ := bake_name ht
      cases a with
      | plain e x =>
        refine ⟨(n, e, x) :: l, .cons (.plain hn) hc, fun z f o t => ⟨?_, ?_, ?_⟩⟩
        · simp only [writeMacro, writeList, hp, hb, Res.ok_bind]
          congr 1; funext t; exact (hl' z f o t).1
        · simp only [updateMacro, updateList, hp, hb, Res.ok_bind]
          congr 1; funext t; exact (hl' z f o t).2.1
        · simp only [readMacro, readList, hp, hb, Res.ok_bind, (hl' z f o t).2.2]
      | named m e x =>
        refine ⟨(m, e, x) :: l, .cons .named hc, fun z f o t => ⟨?_, ?_, ?_⟩⟩
        · simp only [writeMacro, writeList, hp, Res.ok_bind]
          congr 1; funext t; exact (hl' z f o t).1
        · simp only [updateMacro, updateList, hp, Res.ok_bind]
          congr 1; funext t; exact (hl' z f o t).2.1
        · simp only [readMacro, readList, hp, Res.ok_bind, (hl' z f o t).2.2]

theorem writeList_eq (z : α) (f : Format) (l : List (Str × ET × Vec α)) (t : Tbl α) : writeList z f l t = writeAll z f t l := by
  induction l generalizing t with
  | nil => rfl
  | cons x l ih =>
    simp only [writeList, writeAll]
    congr 1; funext t; exact ih t

/-! ### Writing and reading -/

/-- Spec: vectors that receive the values of the columns of `l`: same names, types and numbers of dimensions, any values -/
def Receives (l l' : List (Str × ET × Vec α)) : Prop := List.Forall₂ (fun x y => x.1 = y.1 ∧ x.2.1 = y.2.1 ∧ x.2.2.dims.length = y.2.2.dims.length) l l'

theorem readList_ok (f : Format) (o : Opts) (z : α) (t : Tbl α) (l l' : List (Str × ET × Vec α)) (h : Receives l l')
    (hr : ∀ x ∈ l, readColumn f o t x.1 x.2.1 x.2.2.dims.length z = .ok (some x.2.2)) : readList f o z t l' = .ok (l.map fun x => x.2.2) := by
  induction h with
  | nil => rfl
  | @cons x y l l' hxy h ih =>
    obtain ⟨n, e, v⟩ := x
    obtain ⟨n', e', v'⟩ := y
    obtain ⟨rfl, rfl, hd⟩ := hxy
    have := hr _ List.mem_cons_self
    simp only at this hd
    simp only [readList, readInto, ← hd, this, Res.ok_bind, Option.getD_some, ih fun x hx => hr x (List.mem_cons_of_mem _ hx), List.map_cons]

/-- A catalogue written in a new table is read back: all the vectors have the values that were written, whatever they contained before. (Full statement: for all
vectors; see C125 for those that are not read back.) -/
theorem C178_catalogue_partial (z : α) (f : Format) (o : Opts) (n : Nat) (l l' : List (Str × ET × Vec α)) (hr : Receives l l') (hg : ∀ x ∈ l, Good f n x)
    (hp : l.Pairwise (fun x y => upper x.1 ≠ upper y.1)) (h0 : f = .row → ∀ x ∈ l.head?, 0 ∉ x.2.2.dims.tail) :
    ∃ t, writeList z f l (newTable f) = .ok t ∧ readList f o z t l' = .ok (l.map fun x => x.2.2) ∧
      ((f = .row → n ≠ 1) → readList (formatOf t) o z t l' = .ok (l.map fun x => x.2.2)) := by
  obtain ⟨t, h1, -, h3, -, h5⟩ := C125_table_partial z f n l hg hp h0
  exact ⟨t, by rw [writeList_eq]; exact h1, readList_ok f o z t l l' hr (h3 o), fun hn => readList_ok _ o z t l l' hr (h5 hn o)⟩

theorem readColumn_free (f : Format) (o : Opts) (z : α) (t : Tbl α) (name : Str) (e : ET) (dim : Nat) (h : Free t name) :
    readColumn f o t name e dim z = if o.missing then .ok none else .abort := by
  have : colnum t name = none := by
    unfold colnum
    rw [List.filter_eq_nil_iff.2]
    intro i hi
    have hi := List.mem_range.1 hi
    rw [List.getElem?_eq_getElem hi]
    simpa using h _ (List.getElem_mem hi)
  unfold readColumn
  rw [this]

/-- If a column is missing, the program stops, unless this is allowed: then the vector keeps its value, and the others are read. -/
theorem C178_missing (f : Format) (o : Opts) (z : α) (t : Tbl α) (l : List (Str × ET × Vec α)) :
    (o.missing = false → (∃ x ∈ l, Free t x.1) → ∀ vs, readList f o z t l ≠ .ok vs) ∧
    (o.missing = true → ∀ vs, readList f o z t l = .ok vs ↔
      List.Forall₂ (fun x v => (Free t x.1 ∧ v = x.2.2) ∨ (¬ Free t x.1 ∧ readInto f o z t x.1 x.2.1 x.2.2 = .ok v)) l vs) := by
  constructor
  · rintro ho ⟨x, hx, hf⟩
    induction l with
    | nil => simp at hx
    | cons y l ih =>
      obtain ⟨n, e, v⟩ := y
      intro vs h
      simp only [readList] at h
      obtain ⟨v', h1, h⟩ := Res.bind_eq_ok.1 h
      obtain ⟨vs', h2, h⟩ := Res.bind_eq_ok.1 h
      rcases List.mem_cons.1 hx with rfl | hx
      · simp only [readInto, readColumn_free f o z t n e _ hf, ho] at h1
        cases h1
      · exact ih hx vs' h2
  · intro ho
    induction l with
    | nil =>
      intro vs
      simp only [readList, Res.ok.injEq, List.forall₂_nil_left_iff]
      exact eq_comm
    | cons y l ih =>
      obtain ⟨n, e, v⟩ := y
      have hI : Free t n → readInto f o z t n e v = .ok v := by
        intro hf
        simp only [readInto, readColumn_free f o z t n e _ hf, ho, if_true, Res.ok_bind, Option.getD_none]
      intro vs
      constructor
      · intro h
        simp only [readList] at h
        obtain ⟨v', h1, h⟩ := Res.bind_eq_ok.1 h
        obtain ⟨vs', h2, h⟩ := Res.bind_eq_ok.1 h
        cases h
        refine .cons ?_ ((ih vs').1 h2)
        by_cases hf : Free t n
        · rw [hI hf] at h1
          exact Or.inl ⟨hf, (Res.ok.inj h1).symm⟩
        · exact Or.inr ⟨hf, h1⟩
      · intro h
        cases h with
        | @cons _ v' _ vs' h1 h2 =>
          have h3 : readInto f o z t n e v = .ok v' := by
            rcases h1 with ⟨hf, rfl⟩ | ⟨-, h1⟩
            · exact hI hf
            · exact h1
          simp only [readList, h3, Res.ok_bind, (ih vs').2 h2]

example : readList (α := Int) .column { missing := true } 0 (newTable .column) [("a".toList, .int, ⟨[7], [1]⟩)] = .ok [⟨[7], [1]⟩] ∧
    Free (newTable .column : Tbl Int) "a".toList := by
  refine ⟨rfl, ?_⟩
  intro c hc
  simp [newTable] at hc

/-! ### Updates -/

theorem lookup_isSome_of_append {t : Tbl α} {c : Col α} {name : Str} (n : Nat) (h : upper c.name ≠ upper name) :
    lookup (⟨n, t.cols ++ [c]⟩ : Tbl α) name = lookup t name := lookup_append (by simpa using h) n

/-- the columns that do not have the name -/
def without (t : Tbl α) (name : Str) : List (Col α) := t.cols.filter fun c => decide (upper c.name ≠ upper name)

theorem remove_without {t : Tbl α} {name : Str} (hf : Free t name ∨ (lookup t name).isSome) : removeColumn t name = ⟨t.nrow, without t name⟩ := by
  have hfree : ∀ l : List (Col α), (∀ c ∈ l, upper c.name ≠ upper name) → l.filter (fun c => decide (upper c.name ≠ upper name)) = l := by
    intro l h
    rw [List.filter_eq_self]
    intro c hc
    simpa using h c hc
  rcases hf with hf | hf
  · have : lookup t name = none := by
      unfold lookup
      rw [List.filter_eq_nil_iff.2]
      intro c hc
      simpa using hf c hc
    rw [remove_none this, without, hfree _ hf]
  · obtain ⟨c, hc⟩ := Option.isSome_iff_exists.1 hf
    obtain ⟨l₁, l₂, h1, h2, h3, h4⟩ := remove_eq hc
    rw [h2, without, h1, List.filter_append, List.filter_cons_of_neg (by simpa using h3), hfree _ fun d hd => h4 d (by simp [hd]), hfree _ fun d hd => h4 d (by simp [hd])]

/-- Spec: the columns of the table that are not updated -/
def kept (t : Tbl α) (l : List (Str × ET × Vec α)) : List (Col α) := t.cols.filter fun c => decide (∀ x ∈ l, upper c.name ≠ upper x.1)

theorem without_lt {t : Tbl α} {name : Str} (h : (lookup t name).isSome) : (without t name).length + 1 = t.cols.length := by
  obtain ⟨c, hc⟩ := Option.isSome_iff_exists.1 h
  obtain ⟨l₁, l₂, h1, h2, h3, h4⟩ := remove_eq hc
  have := remove_without (.inr h)
  rw [h2] at this
  have := congrArg Tbl.cols this
  simp only at this
  rw [← this, h1]
  simp only [List.length_append, List.length_cons]
  omega

/-- `update_columns` replaces the columns of the names given, or adds them if there are none, and does not change what is read under other names. The columns
updated are after the others. (Full statement: for all vectors; a row-oriented table needs two columns, see `C125_update_refuted`.) -/
theorem C178_update_partial (z : α) (f : Format) (l : List (Str × ET × Vec α)) : ∀ t : Tbl α, Inv f t → (∀ x ∈ l, Good f t.nrow x) →
    l.Pairwise (fun x y => upper x.1 ≠ upper y.1) → (∀ x ∈ l, Free t x.1 ∨ (lookup t x.1).isSome) → (f = .row → 2 ≤ t.cols.length) →
    ∃ t', updateList z f l t = .ok t' ∧ t'.nrow = t.nrow ∧ t'.cols = kept t l ++ l.map (fun x => colOf f x.1 x.2.1 x.2.2) ∧
      (∀ o, ∀ x ∈ l, readColumn f o t' x.1 x.2.1 x.2.2.dims.length z = .ok (some x.2.2)) ∧
      (∀ o name e dim, (∀ x ∈ l, upper name ≠ upper x.1) → readColumn f o t' name e dim z = readColumn f o t name e dim z) := by
  induction l with
  | nil =>
    intro t _ _ _ _ _
    refine ⟨t, rfl, rfl, ?_, by simp, by simp⟩
    simp [kept]
  | cons x l ih =>
    intro t hi hg hp hf h2
    obtain ⟨n, e, v⟩ := x
    obtain ⟨hs, he, hrow⟩ := hg _ List.mem_cons_self
    have hfx := hf _ List.mem_cons_self
    simp only at hs he hrow hfx
    have hrem := remove_without hfx
    have hlen : f = .row → without t n ≠ [] := by
      intro h hc
      have := h2 h
      rcases hfx with hfx | hfx
      · have : without t n = t.cols := by
          rw [without, List.filter_eq_self]
          intro c hc
          simpa using hfx c hc
        rw [hc] at this
        have h3 := h2 h
        rw [← this] at h3
        simp at h3
      · have := without_lt hfx
        rw [hc] at this
        simp at this
        omega
    have hi' : Inv f (⟨t.nrow, without t n⟩ : Tbl α) := by
      cases f with
      | column => exact hi
      | row => intro h; exact absurd h (hlen rfl)
    have hw := write_form z f ⟨t.nrow, without t n⟩ n e v hi' hs he (fun h _ => (hrow h).1)
    have hra : rowsAfter f (⟨t.nrow, without t n⟩ : Tbl α) v.dims = t.nrow := by
      unfold rowsAfter
      rw [if_pos]
      cases f with
      | column => exact .inl rfl
      | row => exact .inr (hlen rfl)
    rw [hra] at hw
    have hu : updateColumn z f t n e v = .ok ⟨t.nrow, without t n ++ [colOf f n e v]⟩ := by
      unfold updateColumn
      rw [hrem, hw]
    have hpw := List.pairwise_cons.1 hp
    have hln : ∀ name, upper name ≠ upper n → lookup (⟨t.nrow, without t n ++ [colOf f n e v]⟩ : Tbl α) name = lookup t name := by
      intro name hne
      rw [lookup_isSome_of_append (t := ⟨t.nrow, without t n⟩) _ (by simpa [colOf, upper_upper] using fun h => hne h.symm), ← hrem, lookup_remove_other hne]
    have hi2 : Inv f (⟨t.nrow, without t n ++ [colOf f n e v]⟩ : Tbl α) := by
      cases f with
      | column => exact hi
      | row => intro h; exact absurd h (by simp)
    have hfr : ∀ y ∈ l, Free (⟨t.nrow, without t n ++ [colOf f n e v]⟩ : Tbl α) y.1 ∨ (lookup (⟨t.nrow, without t n ++ [colOf f n e v]⟩ : Tbl α) y.1).isSome := by
      intro y hy
      have hne : upper y.1 ≠ upper n := fun h => hpw.1 y hy h.symm
      rcases hf y (List.mem_cons_of_mem _ hy) with h | h
      · left
        intro c hc
        rcases List.mem_append.1 hc with hc | hc
        · exact h c (List.mem_filter.1 hc).1
        · rw [List.mem_singleton] at hc
          subst hc
          simpa [colOf, upper_upper] using fun h => hne h.symm
      · right
        rw [hln _ hne]
        exact h
    have hl2 : f = .row → 2 ≤ (⟨t.nrow, without t n ++ [colOf f n e v]⟩ : Tbl α).cols.length := by
      intro h
      have := h2 h
      rcases hfx with hfx | hfx
      · have : without t n = t.cols := by
          rw [without, List.filter_eq_self]
          intro c hc
          simpa using hfx c hc
        simp only [this, List.length_append]
        omega
      · have := without_lt hfx
        simp only [List.length_append, List.length_singleton]
        omega
    obtain ⟨t', g1, g2, g3, g4, g5⟩ := ih ⟨t.nrow, without t n ++ [colOf f n e v]⟩ hi2 (fun y hy => hg y (List.mem_cons_of_mem _ hy)) hpw.2 hfr hl2
    refine ⟨t', by rw [updateList, hu, Res.ok_bind, g1], g2, ?_, ?_, ?_⟩
    · rw [g3]
      have e1 : kept (⟨t.nrow, without t n ++ [colOf f n e v]⟩ : Tbl α) l = kept t ((n, e, v) :: l) ++ [colOf f n e v] := by
        unfold kept without
        rw [List.filter_append, List.filter_filter, List.filter_cons_of_pos, List.filter_nil]
        · congr 1
          apply List.filter_congr
          intro c _
          simp only [List.forall_mem_cons, ne_eq, decide_not, Bool.decide_and]
          rw [Bool.and_comm]
        · simp only [colOf, decide_eq_true_eq, upper_upper]
          exact fun y hy => hpw.1 y hy
      rw [e1]
      simp
    · intro o y hy
      rcases List.mem_cons.1 hy with rfl | hy
      · rw [g5 o _ _ _ fun y hy => hpw.1 y hy]
        exact (C125_update_partial z f o t _ n e v hi hs he hfx (fun h => ⟨(hrow h).2, h2 h⟩) hu).1
      · exact g4 o y hy
    · intro o name e' dim hne
      rw [g5 o name e' dim fun y hy => hne y (List.mem_cons_of_mem _ hy)]
      exact (C125_update_partial z f o t _ n e v hi hs he hfx (fun h => ⟨(hrow h).2, h2 h⟩) hu).2 name e' dim (hne _ List.mem_cons_self)

/-! ### Structures -/

/-- Spec: the vectors of a structure with the names of their columns: the names of the members that lead to them, in capitals and separated by dots -/
def S.flat : Str → S α → List (Str × ET × Vec α)
  | _, .nil => []
  | base, .leaf n e v rest => (base ++ upper n, e, v) :: rest.flat base
  | base, .sub n ms rest => ms.flat (base ++ upper n ++ ['.']) ++ rest.flat base

/-- Spec: the names of the members -/
def S.names : S α → List Str
  | .nil => []
  | .leaf n _ _ rest => n :: rest.names
  | .sub n _ rest => n :: rest.names

/-- Spec: the names of the members of a structure are different, and this in capitals too; there are no dots in names -/
def S.Distinct : S α → Prop
  | .nil => True
  | .leaf n _ _ rest => '.' ∉ n ∧ (∀ m ∈ rest.names, upper m ≠ upper n) ∧ rest.Distinct
  | .sub n ms rest => '.' ∉ n ∧ (∀ m ∈ rest.names, upper m ≠ upper n) ∧ ms.Distinct ∧ rest.Distinct

theorem upper_append (a b : Str) : upper (a ++ b) = upper a ++ upper b := by simp [upper]

theorem writeAll_append (z : α) (f : Format) (l l' : List (Str × ET × Vec α)) (t : Tbl α) :
    writeAll z f t (l ++ l') = writeAll z f t l >>= fun t => writeAll z f t l' := by
  induction l generalizing t with
  | nil => rfl
  | cons x l ih =>
    simp only [List.cons_append, writeAll]
    cases writeColumn z f t x.1 x.2.1 x.2.2 with
    | ok t => simp only [Res.ok_bind]; exact ih t
    | _ => rfl

/-- A structure is written as the list of its vectors. -/
theorem C178_struct (z : α) (f : Format) (s : S α) (base : Str) (hb : upper base = base) (t : Tbl α) : s.write z f base t = writeList z f (s.flat base) t := by
  rw [writeList_eq]
  induction s generalizing base t with
  | nil => rfl
  | leaf n e v rest ih =>
    simp only [S.write, S.flat, writeAll]
    congr 1; funext t; exact ih base hb t
  | sub n ms rest ih1 ih2 =>
    have hu : upper (base ++ upper n) = base ++ upper n := by rw [upper_append, hb, upper_upper]
    simp only [S.write, S.flat, writeAll_append, hu]
    rw [ih1 _ (by rw [upper_append, hu]; rfl)]
    congr 1; funext t; exact ih2 base hb t

theorem toUpper_ne_dot (c : Char) (h : c ≠ '.') : c.toUpper ≠ '.' := by
  unfold Char.toUpper
  split
  · rename_i hc
    intro e
    have := congrArg Char.toNat e
    simp only [Char.toNat] at this
    have h1 := hc.1
    have h2 := hc.2
    have := congrArg Char.val e
    simp only at this
    have := congrArg UInt32.toNat this
    rw [UInt32.le_iff_toNat_le] at h1 h2
    rw [UInt32.toNat_add] at this
    simp at this h1 h2
    omega
  · exact h

theorem upper_dot {n : Str} (h : '.' ∉ n) : '.' ∉ upper n := by
  intro hc
  obtain ⟨c, hc, he⟩ := List.mem_map.1 hc
  by_cases hcd : c = '.'
  · exact h (hcd ▸ hc)
  · exact toUpper_ne_dot c hcd he

/-- the names of columns: the base, the name of a member, then nothing or a dot -/
theorem flat_name (s : S α) (base : Str) {x : Str × ET × Vec α} (h : x ∈ s.flat base) : ∃ m ∈ s.names, ∃ r, x.1 = base ++ upper m ++ r ∧ (r = [] ∨ ∃ r', r = '.' :: r') := by
  induction s generalizing base with
  | nil => simp [S.flat] at h
  | leaf n e v rest ih =>
    rcases List.mem_cons.1 h with rfl | h
    · exact ⟨n, by simp [S.names], [], by simp, .inl rfl⟩
    · obtain ⟨m, hm, r⟩ := ih base h
      exact ⟨m, by simp [S.names, hm], r⟩
  | sub n ms rest ih1 ih2 =>
    rcases List.mem_append.1 h with h | h
    · obtain ⟨m, hm, r, e, -⟩ := ih1 _ h
      exact ⟨n, by simp [S.names], '.' :: (upper m ++ r), by rw [e]; simp, .inr ⟨_, rfl⟩⟩
    · obtain ⟨m, hm, r⟩ := ih2 base h
      exact ⟨m, by simp [S.names, hm], r⟩

theorem split_dot {a b r r' : Str} (ha : '.' ∉ a) (hb : '.' ∉ b) (hr : r = [] ∨ ∃ q, r = '.' :: q) (hr' : r' = [] ∨ ∃ q, r' = '.' :: q) (h : a ++ r = b ++ r') : a = b := by
  induction a generalizing b with
  | nil =>
    cases b with
    | nil => rfl
    | cons c b =>
      rcases hr with rfl | ⟨q, rfl⟩
      · simp at h
      · simp only [List.nil_append, List.cons_append, List.cons.injEq] at h
        exact absurd (h.1 ▸ List.mem_cons_self) hb
  | cons c a ih =>
    cases b with
    | nil =>
      rcases hr' with rfl | ⟨q, rfl⟩
      · simp at h
      · simp only [List.nil_append, List.cons_append, List.cons.injEq] at h
        exact absurd (h.1 ▸ List.mem_cons_self) ha
    | cons d b =>
      simp only [List.cons_append, List.cons.injEq] at h
      rw [h.1, ih (fun hh => ha (by simp [hh])) (fun hh => hb (by simp [hh])) h.2]

theorem names_dot (s : S α) (h : s.Distinct) : ∀ m ∈ s.names, '.' ∉ m := by
  induction s with
  | nil => simp [S.names]
  | leaf n e v rest ih =>
    intro m hm
    rcases List.mem_cons.1 hm with rfl | hm
    · exact h.1
    · exact ih h.2.2 m hm
  | sub n ms rest ih1 ih2 =>
    intro m hm
    rcases List.mem_cons.1 hm with rfl | hm
    · exact h.1
    · exact ih2 h.2.2.2 m hm

theorem flat_upper (s : S α) (base : Str) (hb : upper base = base) {x : Str × ET × Vec α} (h : x ∈ s.flat base) : upper x.1 = x.1 := by
  induction s generalizing base with
  | nil => simp [S.flat] at h
  | leaf n e v rest ih =>
    rcases List.mem_cons.1 h with rfl | h
    · simp only; rw [upper_append, hb, upper_upper]
    · exact ih base hb h
  | sub n ms rest ih1 ih2 =>
    rcases List.mem_append.1 h with h | h
    · exact ih1 _ (by rw [upper_append, upper_append, hb, upper_upper]; rfl) h
    · exact ih2 base hb h

/-- The names of the columns of a structure are different. -/
theorem flat_distinct (s : S α) (base : Str) (hb : upper base = base) (h : s.Distinct) : (s.flat base).Pairwise fun x y => upper x.1 ≠ upper y.1 := by
  induction s generalizing base with
  | nil => exact .nil
  | leaf n e v rest ih =>
    refine List.pairwise_cons.2 ⟨fun y hy he => ?_, ih base hb h.2.2⟩
    obtain ⟨m, hm, r, e1, hr⟩ := flat_name rest base hy
    rw [flat_upper rest base hb hy, e1] at he
    simp only [upper_append, hb, upper_upper, List.append_assoc] at he
    have he := List.append_cancel_left he
    have := split_dot (upper_dot h.1) (upper_dot (names_dot rest h.2.2 m hm)) (.inl rfl) hr (by rw [List.append_nil]; exact he)
    exact h.2.1 m hm this.symm
  | sub n ms rest ih1 ih2 =>
    have hb' : upper (base ++ upper n ++ ['.']) = base ++ upper n ++ ['.'] := by rw [upper_append, upper_append, hb, upper_upper]; rfl
    refine List.pairwise_append.2 ⟨ih1 _ hb' h.2.2.1, ih2 base hb h.2.2.2, fun x hx y hy he => ?_⟩
    obtain ⟨m, hm, r, e1, hr⟩ := flat_name ms _ hx
    obtain ⟨m', hm', r', e2, hr'⟩ := flat_name rest base hy
    rw [flat_upper ms _ hb' hx, flat_upper rest base hb hy, e1, e2] at he
    simp only [List.append_assoc] at he
    have he := List.append_cancel_left he
    have := split_dot (upper_dot h.1) (upper_dot (names_dot rest h.2.2.2 m' hm')) (.inr ⟨_, rfl⟩) hr' he
    exact h.2.1 m' hm' this.symm

/-- Spec: a structure of the same type: same members, types and numbers of dimensions; any values -/
inductive Like : S α → S α → Prop
  | nil : Like .nil .nil
  | leaf {n e v v' r r'} : v.dims.length = v'.dims.length → Like r r' → Like (.leaf n e v r) (.leaf n e v' r')
  | sub {n m m' r r'} : Like m m' → Like r r' → Like (.sub n m r) (.sub n m' r')

theorem read_like (f : Format) (o : Opts) (z : α) (t : Tbl α) (s s' : S α) (base : Str) (hb : upper base = base) (h : Like s s')
    (hr : ∀ x ∈ s.flat base, readColumn f o t x.1 x.2.1 x.2.2.dims.length z = .ok (some x.2.2)) : s'.read f o z t base = .ok s := by
  induction h generalizing base with
  | nil => rfl
  | @leaf n e v v' r r' hd h ih =>
    have := hr _ List.mem_cons_self
    simp only at this
    simp only [S.read, readInto, ← hd, this, Res.ok_bind, Option.getD_some, ih base hb fun x hx => hr x (List.mem_cons_of_mem _ hx)]
  | @sub n m m' r r' h1 h2 ih1 ih2 =>
    have hu : upper (base ++ upper n) = base ++ upper n := by rw [upper_append, hb, upper_upper]
    simp only [S.read, hu]
    rw [ih1 _ (by rw [upper_append, hu]; rfl) fun x hx => hr x (List.mem_append_left _ hx), Res.ok_bind, ih2 base hb fun x hx => hr x (List.mem_append_right _ hx)]
    rfl

/-- A structure written in a new table is read back in a structure of the same type. -/
theorem C178_struct_partial (z : α) (f : Format) (o : Opts) (n : Nat) (s s' : S α) (hl : Like s s') (hd : s.Distinct) (hg : ∀ x ∈ s.flat [], Good f n x)
    (h0 : f = .row → ∀ x ∈ (s.flat []).head?, 0 ∉ x.2.2.dims.tail) : ∃ t, s.write z f [] (newTable f) = .ok t ∧ s'.read f o z t [] = .ok s := by
  obtain ⟨t, h1, -, h3, -, -⟩ := C125_table_partial z f n (s.flat []) hg (flat_distinct s [] rfl hd) h0
  exact ⟨t, by rw [C178_struct z f s [] rfl, writeList_eq, h1], read_like f o z t s s' [] rfl hl (h3 o)⟩

/-! ### Findings and concrete cases -/

def va (x : Int) : Vec Int := ⟨[x], [1]⟩

/-- Finding: `update_columns` of a structure that contains a structure does not remove the columns of the members of the latter: they are written a second time, and
can no longer be read. -/
theorem C178_update_struct_refuted : let s : Int → S Int := fun k => .sub "p".toList (.leaf "x".toList .int (va k) .nil) .nil
    ∃ t t', (s 1).write 0 .column [] (newTable .column) = .ok t ∧ (s 0).read .column {} 0 t [] = .ok (s 1) ∧
      (s 2).update 0 .column t = .ok t' ∧ t'.cols.map Col.name = ["P.X".toList, "P.X".toList] ∧ (s 0).read .column {} 0 t' [] = .abort :=
  ⟨_, _, rfl, rfl, rfl, rfl, rfl⟩

/-- Finding: members of a structure whose names differ by the case only are written under the same name, and cannot be read. -/
theorem C178_case_refuted : let s : S Int := .leaf "m".toList .int (va 1) (.leaf "M".toList .int (va 2) .nil)
    ∃ t, s.write 0 .column [] (newTable .column) = .ok t ∧ s.read .column {} 0 t [] = .abort := ⟨_, rfl, rfl⟩

/-- `ftable(cat.ra, z[0], _named(m, "mag"))` -/
example : writeMacro (0 : Int) .column "cat.ra, z[0], _named(m, \"mag\")".toList [.plain .int (va 1), .plain .int (va 2), .named "mag".toList .int (va 3)] (newTable .column) =
    .ok ⟨1, [⟨"RA".toList, .longlong, [1], [1]⟩, ⟨"Z[0]".toList, .longlong, [1], [2]⟩, ⟨"MAG".toList, .longlong, [1], [3]⟩]⟩ := by rfl

/-- hypotheses of C178_struct_partial and C178_update_partial -/
example : let s : S Int := .leaf "id".toList .int (va 1) (.sub "p".toList (.leaf "x".toList .int (va 2) (.leaf "y".toList .int (va 3) .nil)) .nil)
    s.Distinct ∧ s.flat [] = [("ID".toList, .int, va 1), ("P.X".toList, .int, va 2), ("P.Y".toList, .int, va 3)] ∧ ∀ x ∈ s.flat [], Good .column 1 x := by
  refine ⟨?_, rfl, ?_⟩
  · simp only [S.Distinct, S.names]; decide +kernel
  · intro x hx
    have : x = ("ID".toList, .int, va 1) ∨ x = ("P.X".toList, .int, va 2) ∨ x = ("P.Y".toList, .int, va 3) := by
      have hx : x ∈ [("ID".toList, .int, va 1), ("P.X".toList, .int, va 2), ("P.Y".toList, .int, va 3)] := hx
      simpa using hx
    rcases this with rfl | rfl | rfl <;> exact ⟨⟨by decide, rfl⟩, by decide, by simp⟩

end Verif.FitsCols
