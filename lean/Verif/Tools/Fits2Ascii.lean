import Verif.Io.TableProps
import Verif.Str.ConvProps
/-!
# `fits2ascii` (C210, C211)

The columns of the FITS table are inputs, with their values as `to_string` writes them (C143). Regular expressions are a function (C78).
-/
namespace Verif.Fits2Ascii
open Verif Verif.Str Verif.Io Verif.StrConv

/-! ### Model -/

/-- the values of a column: of dimension 1, of dimension 2 (each of the `dims[1]` columns), or more -/
inductive Dim where
  | one (cells : List Str)
  | two (cols : List (List Str))
  | more (d : Nat)

/-- `fits::column_info`, with the values; `rows` is `dims[0]` -/
structure Column where
  name : Str
  type : Str
  rows : Nat
  dim : Dim

/-- the options: `include` and `exclude`, `rename_from` and `rename_to`, `split_cols` and `split_names`, `id_sel` -/
structure Opts where
  wanted : Str → Bool
  rename : List (Str × Str)
  split : List (Str × List Str)
  ids : List Nat

/-- an element of `names`, `types` and `out_cols` -/
structure Out where
  name : Str
  type : Str
  cells : List Str
deriving DecidableEq

inductive Next where
  | run
  | skip
  | abort
deriving DecidableEq

/-- `check_rows` (`fits2ascii.cpp:34-57`), with the new value of `nrow` -/
def checkRows (rows nrow : Nat) (ids : List Nat) : Next × Nat :=
  if nrow = 0 then
    if ids ≠ [] ∧ rows ≤ ids.foldl max 0 then (.abort, rows) else (.run, rows)
  else if rows ≠ nrow then (.skip, nrow) else (.run, nrow)

/-- `tmp(ids,_)` (`fits2ascii.cpp:72-74,92-94`): the indices are in range, from `check_rows` -/
def pickRows (ids : List Nat) (cells : List Str) : Res (List Str) := if ids = [] then .ok cells else ids.mapM (Res.rd cells)

/-- the name of a column (`fits2ascii.cpp:297-303`): the last of the names that were given to it -/
def renamed (rename : List (Str × Str)) (name : Str) : Str := ((rename.reverse.find? fun q => q.1 = name).map Prod.snd).getD name

/-- an iteration of the loop over the columns (`fits2ascii.cpp:278-338`): `none` if the tool stops with an error -/
def step (o : Opts) (s : Nat × List Out) (c : Column) : Res (Option (Nat × List Out)) :=
  if ¬ o.wanted (c.name.map Char.toLower) then .ok (some s)
  else
    match c.dim with
    | .more _ => .ok (some s)
    | .one cells =>
      match checkRows c.rows s.1 o.ids with
      | (.skip, _) => .ok (some s)
      | (.abort, _) => .ok none
      | (.run, nrow) => do
        let v ← pickRows o.ids cells
        .ok (some (nrow, s.2 ++ [⟨(renamed o.rename c.name).map Char.toLower, '[' :: c.type ++ [']'], v⟩]))
    | .two cols =>
      match o.split.find? (fun q => q.1 = c.name) with
      | none => .ok (some s)
      | some q =>
        match checkRows c.rows s.1 o.ids with
        | (.skip, _) => .ok (some s)
        | (.abort, _) => .ok none
        | (.run, nrow) => do
          let vs ← cols.mapM (pickRows o.ids)
          if q.2.length ≠ cols.length then .ok none
          else .ok (some (nrow, s.2 ++ (q.2.zip vs).map fun nv => ⟨nv.1, '[' :: c.type ++ [']'], nv.2⟩))

/-- the loop over the columns -/
def steps (o : Opts) : Nat × List Out → List Column → Res (Option (Nat × List Out))
  | s, [] => .ok (some s)
  | s, c :: cs => do
    match ← step o s c with
    | none => .ok none
    | some s => steps o s cs

/-- `colsize` and the alignment (`fits2ascii.cpp:345-357`): `max` of an empty vector stops the program -/
def alignCol (c : Out) : Res Out :=
  if c.cells = [] then .abort
  else
    let w := max (max c.name.length c.type.length) ((c.cells.map List.length).foldl max 0) + 2
    .ok ⟨alignLeft c.name w ' ', alignLeft c.type w ' ', c.cells.map fun s => alignLeft s w ' '⟩

/-- the file (`fits2ascii.cpp:359-370`) -/
def render (out : List Out) (nrow : Nat) : Res Str := do
  let out ← out.mapM alignCol
  let rows ← (List.range nrow).mapM fun j => do
    let cs ← out.mapM fun c => Res.rd c.cells j
    .ok ([' ', ' '] ++ cs.flatten)
  .ok ((([['#', ' '] ++ collapse (out.map Out.name), ['#', ' '] ++ collapse (out.map Out.type), ['#', ' ']] ++ rows).map (· ++ ['\n'])).flatten)

/-- `vif_main` (`fits2ascii.cpp:278-372`): the content of the file, `none` if the tool stops with an error -/
def main (o : Opts) (cols : List Column) : Res (Option Str) := do
  match ← steps o (0, []) cols with
  | none => .ok none
  | some (nrow, out) => do
    let f ← render out (if o.ids = [] then nrow else o.ids.length)
    .ok (some f)

/-- a part of the names given to `split`: an array of names, a column of the table, or a text -/
inductive Part where
  | list (names : List Str)
  | text (s : Str)

/-- `vec + vec` and `vec + string` (`fits2ascii.cpp:235,258,260`) -/
def addPart (names : List Str) : Part → List Str
  | .list l => List.zipWith (· ++ ·) names l
  | .text s => names.map (· ++ s)

/-- the text of a vector of indices (`core/bits/operators.hpp:308-318`) -/
def showVec (v : List Nat) : Str := '{' :: collapseSep (v.map dec) [',', ' '] ++ ['}']

/-- `split_names[i]` (`fits2ascii.cpp:221-265`) of a column of dimension 2 with `n` columns, for lists of `n` names: the columns without a name all get `split_cols[i] + '_' + to_string(ide)`, where
`to_string` of a vector is one text -/
def splitNames (col : Str) (n : Nat) (parts : List Part) : List Str :=
  let names := parts.foldl addPart (List.replicate n [])
  if parts = [] then names
  else
    let ide := (List.range n).filter fun i => names[i]? = some []
    names.map fun s => if s = [] then col ++ ['_'] ++ showVec ide else s

/-! ### Specification -/

/-- a column that is asked for, and of a dimension that can be written: 1, or 2 with names -/
def Exported (o : Opts) (c : Column) : Prop :=
  o.wanted (c.name.map Char.toLower) = true ∧ ((∃ cells, c.dim = .one cells) ∨ ∃ cols q, c.dim = .two cols ∧ o.split.find? (fun q => q.1 = c.name) = some q)

open Classical in
/-- the names and the values of the columns in the file: those of the exported columns with `n` rows -/
noncomputable def exports (o : Opts) (n : Nat) (cols : List Column) : List (Str × List Str) := cols.flatMap fun c =>
  if Exported o c ∧ c.rows = n then
    match c.dim with
    | .one cells => [((renamed o.rename c.name).map Char.toLower, cells)]
    | .two vs => (((o.split.find? fun q => q.1 = c.name).map Prod.snd).getD []).zip vs
    | .more _ => []
  else []

/-- the columns have the number of values that they announce, and split columns as many names as columns -/
structure Good (o : Opts) (c : Column) : Prop where
  one : ∀ cells, c.dim = .one cells → cells.length = c.rows
  two : ∀ cols, c.dim = .two cols → ∀ v ∈ cols, v.length = c.rows
  names : ∀ cols q, c.dim = .two cols → o.split.find? (fun q => q.1 = c.name) = some q → q.2.length = cols.length

/-- the rows of the file -/
def chosen (o : Opts) (n : Nat) : List Nat := if o.ids = [] then List.range n else o.ids

/-! ### Helpers -/

theorem pickRows_ok {o : Opts} {n : Nat} (hids : ∀ i ∈ o.ids, i < n) {cells : List Str} (hl : cells.length = n) :
    pickRows o.ids cells = .ok ((chosen o n).map fun i => cells.getD i []) := by
  unfold pickRows chosen
  split
  · congr 1
    subst hl
    apply List.ext_getElem
    · simp
    · intro i h1 h2
      simp [List.getElem?_eq_getElem h1]
  · refine Res.mapM_ok fun i hi => ?_
    have : i < cells.length := by rw [hl]; exact hids i hi
    rw [Res.rd_lt this]
    simp [List.getElem?_eq_getElem this]

theorem foldl_max_lt {l : List Nat} {n a : Nat} (ha : a < n) (h : ∀ i ∈ l, i < n) : l.foldl max a < n := by
  induction l generalizing a with
  | nil => exact ha
  | cons b l ih =>
    rw [List.foldl_cons]
    exact ih (max_lt ha (h b (by simp))) fun i hi => h i (by simp [hi])

theorem le_foldl_max (l : List Nat) (a : Nat) : a ≤ l.foldl max a ∧ ∀ i ∈ l, i ≤ l.foldl max a := by
  induction l generalizing a with
  | nil => simp
  | cons b l ih =>
    rw [List.foldl_cons]
    have := ih (max a b)
    refine ⟨le_trans (le_max_left _ _) this.1, ?_⟩
    intro i hi
    rcases List.mem_cons.1 hi with rfl | hi
    · exact le_trans (le_max_right _ _) this.1
    · exact this.2 i hi

theorem checkRows_ok {o : Opts} {n nrow : Nat} (hn : 0 < n) (hids : ∀ i ∈ o.ids, i < n) (h : nrow = 0 ∨ nrow = n) : checkRows n nrow o.ids = (.run, n) := by
  unfold checkRows
  rcases h with rfl | rfl
  · rw [if_pos rfl, if_neg]
    rintro ⟨-, h⟩
    have := foldl_max_lt hn hids
    omega
  · rw [if_neg (by omega), if_neg (by simp)]

theorem checkRows_skip {n m : Nat} (hn : 0 < n) (ids : List Nat) (h : m ≠ n) : checkRows m n ids = (.skip, n) := by
  unfold checkRows
  rw [if_neg (by omega), if_pos h]

theorem step_other {o : Opts} {s : Nat × List Out} {c : Column} (h : ¬ Exported o c) : step o s c = .ok (some s) := by
  unfold step
  by_cases hw : o.wanted (c.name.map Char.toLower) = true
  · rw [if_neg (by simpa using hw)]
    unfold Exported at h
    cases hd : c.dim with
    | more d => rfl
    | one cells => exact absurd ⟨hw, Or.inl ⟨cells, hd⟩⟩ h
    | two cols =>
      dsimp only
      cases hq : o.split.find? (fun q => q.1 = c.name) with
      | none => rfl
      | some q => exact absurd ⟨hw, Or.inr ⟨cols, q, hd, hq⟩⟩ h
  · rw [if_pos hw]

theorem step_skip {o : Opts} {n : Nat} {out : List Out} {c : Column} (hn : 0 < n) (h : c.rows ≠ n) : step o (n, out) c = .ok (some (n, out)) := by
  unfold step
  split
  · rfl
  · cases hd : c.dim with
    | more d => rfl
    | one cells => dsimp only; rw [checkRows_skip hn _ h]
    | two cols =>
      dsimp only
      cases hq : o.split.find? (fun q => q.1 = c.name) with
      | none => rfl
      | some q => dsimp only; rw [checkRows_skip hn _ h]

/-- the columns in the file, with the chosen rows -/
def Matches (o : Opts) (n : Nat) (out : List Out) (ex : List (Str × List Str)) : Prop :=
  List.Forall₂ (fun (w : Out) (e : Str × List Str) => w.name = e.1 ∧ w.cells = (chosen o n).map fun i => e.2.getD i []) out ex

theorem matches_append {o : Opts} {n : Nat} {a b : List Out} {x y : List (Str × List Str)} (h1 : Matches o n a x) (h2 : Matches o n b y) : Matches o n (a ++ b) (x ++ y) := by
  unfold Matches at *
  induction h1 with
  | nil => exact h2
  | cons h _ ih => exact .cons h ih

theorem step_run {o : Opts} {n nrow : Nat} {out : List Out} {c : Column} (hn : 0 < n) (hids : ∀ i ∈ o.ids, i < n) (h0 : nrow = 0 ∨ nrow = n) (hc : Exported o c) (hr : c.rows = n) (hg : Good o c) :
    ∃ new, step o (nrow, out) c = .ok (some (n, out ++ new)) ∧ Matches o n new (exports o n [c]) := by
  have he : exports o n [c] = match c.dim with
    | .one cells => [((renamed o.rename c.name).map Char.toLower, cells)]
    | .two vs => (((o.split.find? fun q => q.1 = c.name).map Prod.snd).getD []).zip vs
    | .more _ => [] := by
    unfold exports
    rw [List.flatMap_cons, List.flatMap_nil, List.append_nil, if_pos ⟨hc, hr⟩]
  rw [he]
  unfold step
  rw [if_neg (by simpa using hc.1)]
  rcases hc.2 with ⟨cells, hd⟩ | ⟨cols, q, hd, hq⟩
  · rw [hd]
    dsimp only
    rw [hr, checkRows_ok hn hids h0]
    dsimp only
    rw [pickRows_ok hids ((hg.one cells hd).trans hr), Res.ok_bind]
    exact ⟨_, rfl, .cons ⟨rfl, rfl⟩ .nil⟩
  · rw [hd]
    dsimp only
    rw [hq]
    dsimp only
    rw [hr, checkRows_ok hn hids h0]
    dsimp only
    rw [Res.mapM_ok (g := fun v => (chosen o n).map fun i => v.getD i []) (fun v hv => pickRows_ok hids ((hg.two cols hd v hv).trans hr)), Res.ok_bind,
      if_neg (by simpa using hg.names cols q hd hq)]
    refine ⟨_, rfl, ?_⟩
    simp only [Option.map_some, Option.getD_some]
    generalize q.2 = ns
    clear he hd
    unfold Matches
    induction ns generalizing cols with
    | nil => simp
    | cons a ns ih =>
      cases cols with
      | nil => simp
      | cons v vs =>
        simp only [List.map_cons, List.zip_cons_cons]
        exact .cons ⟨rfl, rfl⟩ (ih vs)

theorem exports_cons (o : Opts) (n : Nat) (c : Column) (cs : List Column) : exports o n (c :: cs) = exports o n [c] ++ exports o n cs := by
  unfold exports
  rw [List.flatMap_cons, List.flatMap_cons, List.flatMap_nil, List.append_nil]

theorem exports_none {o : Opts} {n : Nat} {c : Column} (h : ¬ (Exported o c ∧ c.rows = n)) : exports o n [c] = [] := by
  unfold exports
  rw [List.flatMap_cons, List.flatMap_nil, List.append_nil, if_neg h]

theorem steps_run {o : Opts} {n : Nat} (hn : 0 < n) (hids : ∀ i ∈ o.ids, i < n) (cs : List Column) (hg : ∀ c ∈ cs, Good o c) (out : List Out) :
    ∃ new, steps o (n, out) cs = .ok (some (n, out ++ new)) ∧ Matches o n new (exports o n cs) := by
  induction cs generalizing out with
  | nil => exact ⟨[], by simp [steps], .nil⟩
  | cons c cs ih =>
    simp only [steps]
    rw [exports_cons]
    by_cases hc : Exported o c
    · by_cases hr : c.rows = n
      · obtain ⟨new, h1, h2⟩ := step_run (out := out) hn hids (Or.inr rfl) hc hr (hg c (by simp))
        rw [h1, Res.ok_bind]
        obtain ⟨new', h3, h4⟩ := ih (fun x hx => hg x (by simp [hx])) (out ++ new)
        exact ⟨new ++ new', by rw [← List.append_assoc]; exact h3, matches_append h2 h4⟩
      · rw [step_skip hn hr, Res.ok_bind, exports_none fun h => hr h.2]
        exact ih (fun x hx => hg x (by simp [hx])) out
    · rw [step_other hc, Res.ok_bind, exports_none fun h => hc h.1]
      exact ih (fun x hx => hg x (by simp [hx])) out

theorem steps_pre {o : Opts} {s : Nat × List Out} (pre cs : List Column) (h : ∀ c ∈ pre, ¬ Exported o c) : steps o s (pre ++ cs) = steps o s cs := by
  induction pre with
  | nil => rfl
  | cons c pre ih =>
    rw [List.cons_append]
    simp only [steps]
    rw [step_other (h c (by simp)), Res.ok_bind]
    exact ih fun x hx => h x (by simp [hx])

theorem exports_pre {o : Opts} {n : Nat} (pre cs : List Column) (h : ∀ c ∈ pre, ¬ Exported o c) : exports o n (pre ++ cs) = exports o n cs := by
  induction pre with
  | nil => rfl
  | cons c pre ih =>
    rw [List.cons_append, exports_cons, exports_none fun h' => h c (by simp) h'.1, ih fun x hx => h x (by simp [hx])]
    rfl

theorem collapse_flatten (v : List Str) : collapse v = v.flatten := by
  unfold collapse
  have : ∀ (v : List Str) (r : Str), v.foldl (fun r s => r ++ s) r = r ++ v.flatten := by
    intro v
    induction v with
    | nil => simp
    | cons a v ih => intro r; rw [List.foldl_cons, ih, List.flatten_cons, List.append_assoc]
  simpa using this v []

theorem alignLeft_eq (s : Str) (w : Nat) (h : s.length + 2 ≤ w) : alignLeft s w ' ' = s ++ ' ' :: List.replicate (w - s.length - 1) ' ' := by
  unfold alignLeft
  rw [if_pos (by omega), ← List.replicate_succ]
  congr 2
  omega

/-- the words of aligned texts -/
theorem words_aligned (l : List (Str × Nat)) (h : ∀ q ∈ l, q.1.length + 2 ≤ q.2 ∧ Word q.1) :
    words [' ', '\t'] (l.map fun q => alignLeft q.1 q.2 ' ').flatten = l.map Prod.fst := by
  induction l with
  | nil => rfl
  | cons q l ih =>
    obtain ⟨h1, h2⟩ := h q (by simp)
    rw [List.map_cons, List.flatten_cons, alignLeft_eq _ _ h1, List.append_assoc, List.cons_append, words_append _ _ _ _ (by simp),
      words_seps _ _ _ (fun c hc => by rw [(List.mem_replicate.1 hc).2]; simp), ih fun x hx => h x (by simp [hx]), words_word _ _ ?_ h2.1]
    · rfl
    · intro c hc hc'
      simp only [List.mem_cons, List.not_mem_nil, or_false] at hc'
      rcases hc' with rfl | rfl
      · exact h2.2.1 hc
      · exact h2.2.2.1 hc

theorem alignLeft_not_mem {s : Str} {w : Nat} {c : Char} (hc : c ≠ ' ') (h : c ∉ s) : c ∉ alignLeft s w ' ' := by
  unfold alignLeft
  split
  · simp only [List.mem_append, List.mem_replicate, not_or, not_and]
    exact ⟨h, fun _ => hc⟩
  · exact h

/-- the width of a column -/
def wid (c : Out) : Nat := max (max c.name.length c.type.length) ((c.cells.map List.length).foldl max 0) + 2

theorem wid_cell {c : Out} {s : Str} (h : s ∈ c.cells) : s.length + 2 ≤ wid c := by
  unfold wid
  have := (le_foldl_max (c.cells.map List.length) 0).2 s.length (List.mem_map.2 ⟨s, h, rfl⟩)
  omega

theorem wid_name (c : Out) : c.name.length + 2 ≤ wid c := by
  unfold wid
  omega

/-- the line of a row -/
def line (out : List Out) (j : Nat) : Str := [' ', ' '] ++ ((out.map fun c => (c.cells.getD j [], wid c)).map fun q => alignLeft q.1 q.2 ' ').flatten
/-- the header -/
def head (out : List Out) : Str := ['#', ' '] ++ ((out.map fun c => (c.name, wid c)).map fun q => alignLeft q.1 q.2 ' ').flatten
def head2 (out : List Out) : Str := ['#', ' '] ++ ((out.map fun c => (c.type, wid c)).map fun q => alignLeft q.1 q.2 ' ').flatten

theorem render_ok (out : List Out) (m : Nat) (hm : 0 < m) (h : ∀ c ∈ out, c.cells.length = m) :
    render out m = .ok ((([head out, head2 out, ['#', ' ']] ++ (List.range m).map (line out)).map (· ++ ['\n'])).flatten) := by
  unfold render
  rw [Res.mapM_ok (g := fun c => (⟨alignLeft c.name (wid c) ' ', alignLeft c.type (wid c) ' ', c.cells.map fun s => alignLeft s (wid c) ' '⟩ : Out)), Res.ok_bind]
  · rw [Res.mapM_ok (g := line out), Res.ok_bind]
    · rw [collapse_flatten, collapse_flatten]
      simp only [head, head2, List.map_map, Function.comp_def]
    · intro j hj
      rw [List.mem_range] at hj
      rw [List.mapM_map, Res.mapM_ok (g := fun c => alignLeft (c.cells.getD j []) (wid c) ' '), Res.ok_bind]
      · simp only [line, List.map_map, Function.comp_def]
      · intro c hc
        have hl : j < c.cells.length := by rw [h c hc]; exact hj
        simp only [Function.comp_apply]
        rw [Res.rd_lt (by simpa using hl)]
        simp [List.getElem?_eq_getElem hl]
  · intro c hc
    unfold alignCol
    rw [if_neg]
    · rfl
    · intro h0
      have := h c hc
      rw [h0] at this
      simp at this
      omega

/-! ### C210 -/

/-- The file can be read back: if `n` is the number of rows of the first column that is exported, its rows are the rows that are asked for (all, or those of `ids`), and its columns are the exported
columns with `n` rows, with the texts of their values; the first line has their names. (Full statement: for all tables, and with the values instead of their texts. Here the table has rows, and the
texts of the values are words.) -/
theorem C210_read_partial (o : Opts) (pre post : List Column) (c : Column) (hpre : ∀ x ∈ pre, ¬ Exported o x) (hc : Exported o c) (hn : 0 < c.rows)
    (hids : ∀ i ∈ o.ids, i < c.rows) (hg : ∀ x ∈ c :: post, Good o x) (ht : ∀ x ∈ c :: post, '\n' ∉ x.type)
    (hw : ∀ e ∈ exports o c.rows (pre ++ c :: post), Word e.1 ∧ ∀ i ∈ chosen o c.rows, Word (e.2.getD i []))
    (h0 : ∀ e, (exports o c.rows (pre ++ c :: post)).head? = some e → ∀ i ∈ chosen o c.rows, (e.2.getD i []).head? ≠ some '#')
    (hne : exports o c.rows (pre ++ c :: post) ≠ []) :
    ∃ file, main o (pre ++ c :: post) = .ok (some file) ∧
      readTable file {} (List.replicate (exports o c.rows (pre ++ c :: post)).length (.read some)) =
        .ok ((chosen o c.rows).map fun i => (exports o c.rows (pre ++ c :: post)).map fun e => e.2.getD i []) ∧
      ∃ l rest, file = l ++ '\n' :: rest ∧ '\n' ∉ l ∧ words [' ', '\t'] l = ['#'] :: (exports o c.rows (pre ++ c :: post)).map Prod.fst := by
  generalize hN : c.rows = n at *
  rw [exports_pre pre _ hpre] at hw h0 hne ⊢
  -- the columns
  obtain ⟨out, hsteps, hmat, htype⟩ : ∃ out, steps o (0, []) (pre ++ c :: post) = .ok (some (n, out)) ∧ Matches o n out (exports o n (c :: post)) ∧ ∀ w ∈ out, '\n' ∉ w.type := by
    rw [steps_pre pre _ hpre]
    obtain ⟨new, h1, h2⟩ := step_run (out := []) hn hids (Or.inl rfl) hc hN (hg c (by simp))
    obtain ⟨new', h3, h4⟩ := steps_run hn hids post (fun x hx => hg x (by simp [hx])) ([] ++ new)
    have hs : steps o (0, []) (c :: post) = .ok (some (n, [] ++ new ++ new')) := by
      simp only [steps]
      rw [h1, Res.ok_bind]
      exact h3
    refine ⟨_, hs, ?_, ?_⟩
    · rw [exports_cons, List.nil_append]
      exact matches_append h2 h4
    · -- the types
      have key : ∀ (cs : List Column) (s s' : Nat × List Out), (∀ x ∈ cs, '\n' ∉ x.type) → (∀ w ∈ s.2, '\n' ∉ w.type) → steps o s cs = .ok (some s') → ∀ w ∈ s'.2, '\n' ∉ w.type := by
        intro cs
        induction cs with
        | nil =>
          intro s s' _ hs he
          simp only [steps, Res.ok.injEq, Option.some.injEq] at he
          rw [← he]; exact hs
        | cons x cs ih =>
          intro s s' hx hs he
          simp only [steps] at he
          obtain ⟨r, hr, he⟩ := Res.bind_eq_ok.1 he
          cases r with
          | none => simp at he
          | some r =>
            refine ih r s' (fun y hy => hx y (by simp [hy])) ?_ he
            have hxt : '\n' ∉ '[' :: x.type ++ [']'] := by
              have := hx x (by simp)
              simp [this]
            unfold step at hr
            split at hr
            · simp only [Res.ok.injEq, Option.some.injEq] at hr; rw [← hr]; exact hs
            · split at hr
              · simp only [Res.ok.injEq, Option.some.injEq] at hr; rw [← hr]; exact hs
              · split at hr
                · simp only [Res.ok.injEq, Option.some.injEq] at hr; rw [← hr]; exact hs
                · simp at hr
                · obtain ⟨v, -, hr⟩ := Res.bind_eq_ok.1 hr
                  simp only [Res.ok.injEq, Option.some.injEq] at hr
                  rw [← hr]
                  intro w hw
                  rcases List.mem_append.1 hw with hw | hw
                  · exact hs w hw
                  · rw [List.mem_singleton] at hw; rw [hw]; exact hxt
              · split at hr
                · simp only [Res.ok.injEq, Option.some.injEq] at hr; rw [← hr]; exact hs
                · split at hr
                  · simp only [Res.ok.injEq, Option.some.injEq] at hr; rw [← hr]; exact hs
                  · simp at hr
                  · obtain ⟨v, -, hr⟩ := Res.bind_eq_ok.1 hr
                    split at hr
                    · simp at hr
                    · simp only [Res.ok.injEq, Option.some.injEq] at hr
                      rw [← hr]
                      intro w hw
                      rcases List.mem_append.1 hw with hw | hw
                      · exact hs w hw
                      · obtain ⟨nv, -, rfl⟩ := List.mem_map.1 hw; exact hxt
      exact key _ _ _ ht (by simp) hs
  generalize exports o n (c :: post) = ex at *
  have hsel : ∀ i ∈ chosen o n, i < n := by
    unfold chosen
    split
    · intro i hi; exact List.mem_range.1 hi
    · exact hids
  have hm : (if o.ids = [] then n else o.ids.length) = (chosen o n).length := by
    unfold chosen; split <;> simp
  have hm0 : 0 < (chosen o n).length := by
    unfold chosen
    split
    · simpa using hn
    · rename_i h; exact List.length_pos_of_ne_nil h
  have hcells : ∀ w ∈ out, w.cells.length = (chosen o n).length := by
    intro w hw'
    obtain ⟨e, -, h1⟩ : ∃ e ∈ ex, w.name = e.1 ∧ w.cells = (chosen o n).map fun i => e.2.getD i [] := by
      clear hsteps htype h0 hne hw
      unfold Matches at hmat
      induction hmat with
      | nil => simp at hw'
      | cons h _ ih =>
        rcases List.mem_cons.1 hw' with rfl | hw'
        · exact ⟨_, by simp, h⟩
        · obtain ⟨e, h1, h2⟩ := ih hw'
          exact ⟨e, by simp [h1], h2⟩
    rw [h1.2]; simp
  refine ⟨_, by
    unfold main
    rw [hsteps, Res.ok_bind]
    dsimp only
    rw [hm, render_ok out _ hm0 hcells, Res.ok_bind], ?_, ?_⟩
  · -- what the lines are
    have hlw : ∀ j < (chosen o n).length, words [' ', '\t'] (line out j) = ex.map fun e => e.2.getD ((chosen o n).getD j 0) [] := by
      intro j hj
      have hcell : (out.map fun c => (c.cells.getD j [], wid c)).map Prod.fst = ex.map fun e => e.2.getD ((chosen o n).getD j 0) [] := by
        rw [List.map_map]
        clear hsteps htype h0 hne hw hcells
        unfold Matches at hmat
        induction hmat with
        | nil => rfl
        | cons h _ ih =>
          rw [List.map_cons, List.map_cons, ih]
          congr 1
          simp only [Function.comp_apply]
          rw [h.2]
          simp [List.getElem?_eq_getElem hj]
      unfold line
      rw [words_seps _ _ _ (by simp), words_aligned, hcell]
      intro q hq
      obtain ⟨w, hw', rfl⟩ := List.mem_map.1 hq
      have hl : j < w.cells.length := by rw [hcells w hw']; exact hj
      have hmem : w.cells.getD j [] ∈ w.cells := by simp [List.getElem?_eq_getElem hl]
      refine ⟨wid_cell hmem, ?_⟩
      have : w.cells.getD j [] ∈ (out.map fun c => (c.cells.getD j [], wid c)).map Prod.fst := by
        rw [List.map_map]; exact List.mem_map.2 ⟨w, hw', rfl⟩
      rw [hcell] at this
      obtain ⟨e, he, h1⟩ := List.mem_map.1 this
      rw [← h1]
      exact (hw e he).2 _ (by simp [List.getElem?_eq_getElem hj])
    have hnm : ∀ (ch : Char), ch ≠ ' ' → (∀ s, Word s → ch ∉ s) → ∀ j < (chosen o n).length, ch ∉ line out j := by
      intro ch h1 h2 j hj hin
      unfold line at hin
      rcases List.mem_append.1 hin with hin' | hin'
      · simp at hin'; exact h1 hin'
      · obtain ⟨t, ht', hin2⟩ := List.mem_flatten.1 hin'
        rw [List.map_map] at ht'
        obtain ⟨w, hw', rfl⟩ := List.mem_map.1 ht'
        simp only [Function.comp_apply] at hin2
        refine alignLeft_not_mem h1 (h2 _ ?_) hin2
        have hq := hlw j hj
        have hl : j < w.cells.length := by rw [hcells w hw']; exact hj
        -- the cell is a value of the table
        have : ∃ e ∈ ex, w.cells.getD j [] = e.2.getD ((chosen o n).getD j 0) [] := by
          clear hsteps htype h0 hne hw hcells hlw hq hin hin' hin2 ht'
          unfold Matches at hmat
          induction hmat with
          | nil => simp at hw'
          | cons h _ ih =>
            rcases List.mem_cons.1 hw' with rfl | hw'
            · refine ⟨_, List.mem_cons_self, ?_⟩
              rw [h.2]
              simp [List.getElem?_eq_getElem hj]
            · obtain ⟨e, h1, h2⟩ := ih hw'
              exact ⟨e, by simp [h1], h2⟩
        obtain ⟨e, he, h3⟩ := this
        rw [h3]
        exact (hw e he).2 _ (by simp [List.getElem?_eq_getElem hj])
    have hnames : ∀ w ∈ out, Word w.name := by
      intro w hw'
      clear hsteps htype h0 hne hcells hlw hnm
      unfold Matches at hmat
      induction hmat with
      | nil => simp at hw'
      | cons h _ ih =>
        rcases List.mem_cons.1 hw' with rfl | hw'
        · rw [h.1]; exact (hw _ (by simp)).1
        · exact ih (fun e he => hw e (by simp [he])) hw'
    rw [read_lines {} rfl rfl rfl _ (fun l => rowSpec (List.replicate ex.length (.read some)) (words [' ', '\t'] l))]
    · rw [List.mapM_map]
      rw [orAbort_mapM _ (fun j => ex.map fun e => e.2.getD ((chosen o n).getD j 0) [])]
      · congr 1
        apply List.ext_getElem
        · simp
        · intro i h1 h2
          simp only [List.length_map, List.length_range] at h1
          simp [List.getElem?_eq_getElem h1]
      · intro j hj
        rw [List.mem_range] at hj
        simp only [Function.comp_apply, hlw j hj]
        exact rowSpec_all _ _ (by simp)
    · intro l hl
      have hfl : ∀ (f : Out → Str), (∀ w ∈ out, '\n' ∉ f w) → '\n' ∉ (['#', ' '] : Str) ++ ((out.map fun c => (f c, wid c)).map fun q => alignLeft q.1 q.2 ' ').flatten := by
        intro f hf hin
        rcases List.mem_append.1 hin with hin | hin
        · simp at hin
        · obtain ⟨t, ht', hin⟩ := List.mem_flatten.1 hin
          rw [List.map_map] at ht'
          obtain ⟨w, hw', rfl⟩ := List.mem_map.1 ht'
          exact alignLeft_not_mem (by decide) (hf w hw') hin
      simp only [List.mem_cons, List.not_mem_nil, or_false] at hl
      rcases hl with rfl | rfl | rfl
      · exact ⟨hfl _ fun w hw' => (hnames w hw').2.2.2.1, rfl⟩
      · exact ⟨hfl _ htype, rfl⟩
      · exact ⟨by decide, rfl⟩
    · intro l hl
      obtain ⟨j, hj, rfl⟩ := List.mem_map.1 hl
      rw [List.mem_range] at hj
      refine ⟨hnm _ (by decide) (fun s hs => hs.2.2.2.1) j hj, hnm _ (by decide) (fun s hs => hs.2.2.2.2) j hj, ?_⟩
      cases hmat with
      | nil => exact absurd rfl hne
      | @cons w e out' ex' h1 h2 =>
        have hs := (hw e (by simp)).2 _ (show (chosen o n).getD j 0 ∈ chosen o n by simp [List.getElem?_eq_getElem hj])
        have hs2 := h0 e rfl _ (show (chosen o n).getD j 0 ∈ chosen o n by simp [List.getElem?_eq_getElem hj])
        have hcell : w.cells.getD j [] = e.2.getD ((chosen o n).getD j 0) [] := by
          rw [h1.2]; simp [List.getElem?_eq_getElem hj]
        have hl' : j < w.cells.length := by rw [hcells w (by simp)]; exact hj
        have hwid := wid_cell (show w.cells.getD j [] ∈ w.cells by simp [List.getElem?_eq_getElem hl'])
        unfold line
        rw [List.map_cons, List.map_cons, List.flatten_cons, alignLeft_eq _ _ hwid]
        rw [hcell] at *
        generalize e.2.getD ((chosen o n).getD j 0) [] = s at *
        cases s with
        | nil => exact absurd rfl hs.1
        | cons ch u =>
          rw [List.append_assoc, List.cons_append (a := ch), isData_head (a := [' ', ' ']) (by simp) ?_ {} rfl rfl]
          · simpa using hs2
          · intro hcc
            simp only [List.mem_cons, List.not_mem_nil, or_false] at hcc
            rcases hcc with rfl | rfl
            · exact hs.2.1 (by simp)
            · exact hs.2.2.1 (by simp)
    · intro l _
      exact readRow_rem _ _ _ (.blank l [' ', '\t'] [] l rfl)
  · -- the names
    have hnames : out.map Out.name = ex.map Prod.fst := by
      clear hsteps htype h0 hne hcells hw
      unfold Matches at hmat
      induction hmat with
      | nil => rfl
      | cons h _ ih => rw [List.map_cons, List.map_cons, ih, h.1]
    have hnw : ∀ w ∈ out, Word w.name := by
      intro w hw'
      have : w.name ∈ ex.map Prod.fst := by rw [← hnames]; exact List.mem_map.2 ⟨w, hw', rfl⟩
      obtain ⟨e, he, h1⟩ := List.mem_map.1 this
      rw [← h1]; exact (hw e he).1
    refine ⟨head out, ((([head2 out, ['#', ' ']] ++ (List.range (chosen o n).length).map (line out)).map (· ++ ['\n'])).flatten), by simp, ?_, ?_⟩
    · unfold head
      intro hin
      rcases List.mem_append.1 hin with hin | hin
      · simp at hin
      · obtain ⟨t, ht', hin⟩ := List.mem_flatten.1 hin
        rw [List.map_map] at ht'
        obtain ⟨w, hw', rfl⟩ := List.mem_map.1 ht'
        exact alignLeft_not_mem (by decide) (hnw w hw').2.2.2.1 hin
    · unfold head
      rw [show ∀ t : Str, (['#', ' '] : Str) ++ t = ['#'] ++ ' ' :: t from fun _ => rfl, words_append _ _ _ _ (by simp), words_aligned]
      · rw [List.map_map]
        show words [' ', '\t'] ['#'] ++ out.map Out.name = _
        rw [hnames]
        rfl
      · intro q hq
        obtain ⟨w, hw', rfl⟩ := List.mem_map.1 hq
        exact ⟨wid_name w, hnw w hw'⟩

/-- Row numbers that are too large are an error. -/
theorem C210_ids (o : Opts) (pre post : List Column) (c : Column) (hpre : ∀ x ∈ pre, ¬ Exported o x) (hc : Exported o c) (i : Nat) (hi : i ∈ o.ids) (hr : c.rows ≤ i) :
    main o (pre ++ c :: post) = .ok none := by
  have hck : checkRows c.rows 0 o.ids = (.abort, c.rows) := by
    unfold checkRows
    rw [if_pos rfl, if_pos]
    exact ⟨List.ne_nil_of_mem hi, le_trans hr ((le_foldl_max o.ids 0).2 i hi)⟩
  have hs : step o (0, []) c = .ok none := by
    unfold step
    rw [if_neg (by simpa using hc.1)]
    rcases hc.2 with ⟨cells, hd⟩ | ⟨cols, q, hd, hq⟩
    · rw [hd]; dsimp only; rw [hck]
    · rw [hd]; dsimp only; rw [hq]; dsimp only; rw [hck]
  unfold main
  rw [steps_pre pre _ hpre]
  simp only [steps]
  rw [hs]
  rfl

/-- an example: a table with two columns, and one of another size -/
def exOpts (ids : List Nat) : Opts := ⟨fun _ => true, [("X".toList, "rate".toList)], [("F".toList, ["f1".toList, "f2".toList])], ids⟩
def exCols : List Column := [⟨"IMG".toList, "float".toList, 2, .more 3⟩, ⟨"ID".toList, "int".toList, 2, .one ["1".toList, "20".toList]⟩,
  ⟨"F".toList, "float".toList, 2, .two [["0.5".toList, "7".toList], ["8".toList, "nan".toList]]⟩, ⟨"BANDS".toList, "string".toList, 1, .one ["u".toList]⟩]
example : main (exOpts []) exCols =
    .ok (some "# id     f1       f2       \n# [int]  [float]  [float]  \n# \n  1      0.5      8        \n  20     7        nan      \n".toList) := by decide +kernel
example : main (exOpts [1]) exCols = .ok (some "# id     f1       f2       \n# [int]  [float]  [float]  \n# \n  20     7        nan      \n".toList) := by decide +kernel
example : main (exOpts [1, 2]) exCols = .ok none := by decide +kernel

/-- A table without rows stops the program. -/
theorem C210_empty_refuted : main (exOpts []) [⟨"ID".toList, "int".toList, 0, .one []⟩] = .abort := by decide +kernel

/-- A text that is not a word is read back as several values, or as none. -/
theorem C210_words_refuted : ∃ file, main (exOpts []) [⟨"NAME".toList, "string".toList, 1, .one ["NGC 7".toList]⟩, ⟨"ID".toList, "int".toList, 1, .one ["42".toList]⟩] = .ok (some file) ∧
    readTable file {} [.read some, .read some] = .ok [["NGC".toList, "7".toList]] :=
  ⟨"# name      id     \n# [string]  [int]  \n# \n  NGC 7     42     \n".toList, by decide +kernel, by decide +kernel⟩

/-- Floating point numbers are written with six digits only, also those of double precision. -/
theorem C210_digits_refuted : ∃ file, main (exOpts []) [⟨"T".toList, "double".toList, 1, .one [fmtG 1234567]⟩] = .ok (some file) ∧
    readTable file {} [.read fun s => some (fromString flReader flFallback s .nan)] = .ok [[(true, .fin 1234570)]] :=
  ⟨"# t            \n# [double]     \n# \n  1.23457e+06  \n".toList, by decide +kernel, by decide +kernel⟩

/-! ### C211 -/

/-- A column gets the last of the names that were given to its name. -/
theorem C211_rename (a b : List (Str × Str)) (name new : Str) (hb : ∀ q ∈ b, q.1 ≠ name) :
    renamed (a ++ (name, new) :: b) name = new ∧ renamed b name = name := by
  have h : b.reverse.find? (fun q => q.1 = name) = none := by
    rw [List.find?_eq_none]
    intro q hq
    simpa using hb q (by simpa using hq)
  unfold renamed
  constructor
  · rw [List.reverse_append, List.reverse_cons, List.append_assoc, List.find?_append, h]
    simp
  · rw [h]; rfl

/-- The names of the columns are the concatenations of the parts, if none is empty. (Full statement: the columns have different names, also those without a name.) -/
theorem C211_split_partial (col : Str) (n : Nat) (parts : List Part) (hp : parts ≠ []) (hl : ∀ l, .list l ∈ parts → l.length = n)
    (hne : ∀ i < n, (parts.map fun p => match p with | .list l => l.getD i [] | .text s => s).flatten ≠ []) :
    splitNames col n parts = (List.range n).map fun i => (parts.map fun p => match p with | .list l => l.getD i [] | .text s => s).flatten := by
  have key : ∀ (ps : List Part) (names : List Str), (∀ l, .list l ∈ ps → l.length = n) → names.length = n → (ps.foldl addPart names).length = n ∧
      ∀ i < n, (ps.foldl addPart names).getD i [] = names.getD i [] ++ (ps.map fun p => match p with | .list l => l.getD i [] | .text s => s).flatten := by
    intro ps
    induction ps with
    | nil => intro names _ h; exact ⟨h, fun i _ => by simp⟩
    | cons p ps ih =>
      intro names h1 h2
      rw [List.foldl_cons]
      have h3 : (addPart names p).length = n := by
        cases p with
        | list l => simp [addPart, h2, h1 l (by simp)]
        | text s => simp [addPart, h2]
      obtain ⟨h4, h5⟩ := ih (addPart names p) (fun l hl' => h1 l (by simp [hl'])) h3
      refine ⟨h4, fun i hi => ?_⟩
      rw [h5 i hi, List.map_cons, List.flatten_cons, ← List.append_assoc]
      congr 1
      cases p with
      | list l =>
        have := h1 l (by simp)
        simp [addPart, List.getElem?_zipWith, List.getElem?_eq_getElem (show i < names.length by omega), List.getElem?_eq_getElem (show i < l.length by omega)]
      | text s => simp [addPart, List.getElem?_eq_getElem (show i < names.length by omega)]
  obtain ⟨h1, h2⟩ := key parts (List.replicate n []) hl (by simp)
  have h3 : parts.foldl addPart (List.replicate n []) = (List.range n).map fun i => (parts.map fun p => match p with | .list l => l.getD i [] | .text s => s).flatten := by
    apply List.ext_getElem
    · simp [h1]
    · intro i hi _
      have := h2 i (by omega)
      rw [List.getD_eq_getElem?_getD, List.getElem?_eq_getElem hi] at this
      simp only [Option.getD_some] at this
      rw [this]
      simp [List.getElem?_replicate, show i < n by omega]
  unfold splitNames
  dsimp only
  rw [if_neg hp, h3, List.map_map]
  apply List.map_congr_left
  intro i hi
  rw [List.mem_range] at hi
  simp only [Function.comp_apply]
  rw [if_neg (hne i hi)]

example : splitNames "FLUX".toList 2 [.text "flux_".toList, .list ["u".toList, "g".toList]] = ["flux_u".toList, "flux_g".toList] := by decide +kernel

/-- Columns whose names are empty all have the same name, with blanks; without any part, they have no name. -/
theorem C211_split_refuted : splitNames "FLUX".toList 2 [.list [[], []]] = ["FLUX_{0, 1}".toList, "FLUX_{0, 1}".toList] ∧ splitNames "FLUX".toList 2 [] = [[], []] := by decide +kernel

/-- The columns of a FITS file often have names in capital letters; they are those that must be given, although `include`, `exclude` and `split` ignore the case and the names are written in lower case. -/
theorem C211_rename_refuted : (main ⟨fun _ => true, [("ra".toList, "alpha".toList)], [], []⟩ [⟨"RA".toList, "double".toList, 1, .one ["1".toList]⟩]) =
    .ok (some "# ra        \n# [double]  \n# \n  1         \n".toList) := by decide +kernel

end Verif.Fits2Ascii
