import Verif.Astro.QxProps
import Verif.Tools.CirclesProps
import Verif.Str.ConvProps
/-!
# Sources in circles: `pixfit-findprior` (C229) and `pixfit-reg2fits` (C230)

The catalogue is given by its distances to the circles. The filter on the masses (`pixfit-findprior.cpp:40-45`) is given by its result, one
boolean for each source. `deg2sex` is given by its text, the printed redshifts and masses by theirs.
-/
namespace Verif.FindPrior
open Verif Verif.Str Verif.StrConv Verif.Qx Verif.Ds9 Verif.Circles

variable {K V : Type}

/-! ### Model -/

/-- the loop on the neighbours of a circle (`pixfit-findprior.cpp:68-72`): it stops at the first one out of the circle; `conv` makes a distance of a proxy. An `npos` index stops the program. -/
def listed [LinearOrder K] (conv : K → K) (r : K) : List (Entry K) → Res (List Nat)
  | [] => .ok []
  | e :: es =>
    if (r : WithTop K) < e.1.map conv then .ok []
    else match e.2 with
      | none => .abort
      | some k => do
        let l ← listed conv r es
        .ok (k :: l)

/-- `pixfit-findprior` (`pixfit-findprior.cpp:44-80`): the sources written for each circle, as indices in the catalogue. `dist` is the proxy of the distance of circle and source, `radius` the radii of the circles. Without circles, `regs(_,0)` stops the program. -/
def findprior [LinearOrder K] (conv : K → K) (keep : List Bool) (nsrc : Nat) (dist : Nat → Nat → K) (radius : List K) : Res (List (List Nat)) := do
  let sid := (List.range keep.length).filter fun k => keep.getD k false
  if radius = [] then .abort else do
  let res ← brute (fun i j => dist i (sid.getD j 0)) true false nsrc radius.length sid.length
  (res.fwd.zip radius).mapM fun (col, r) => do
    let l ← listed conv r col
    l.mapM fun j => Res.rd sid j

/-- a source as it is written: `deg2sex`, the identifier, the printed redshift and mass -/
structure Row where
  ra : Str
  dec : Str
  id : Nat
  z : Str
  m : Str

/-- the line of a source (`pixfit-findprior.cpp:73-76`) -/
def rowLine (r : Row) : Str :=
  "circle(".toList ++ r.ra ++ [','] ++ r.dec ++ ",0.5\") # width=3 text={".toList ++ intToString r.id ++ ", ".toList ++ r.z ++ ", ".toList ++ r.m ++ ['}']

/-- the file (`pixfit-findprior.cpp:61-77`) -/
def priorFile (rows : List Row) : List Str :=
  ["# Region file format: DS9 version 4.1".toList,
   "global color=green dashlist=8 3 width=2 font=\"helvetica 10 normal roman\"select=1 highlite=1 dash=0 fixed=0 edit=1 move=1 delete=1 include=1 source=1".toList,
   "fk5".toList] ++ rows.map rowLine

/-- the text of a circle (`pixfit-common.hpp:211-220`): `text=` is searched after the first `#` that follows the parenthesis; one more character is skipped, up to the next `}` or the end of the line -/
def textOf (line : Str) : Res Str :=
  match (firstOf line ['('] 0).bind fun spos => firstOf line [')'] (spos + 1) with
  | none => .ok []
  | some epos =>
    match firstOf line ['#'] epos with
    | none => .ok []
    | some h =>
      match sfind line sText (h + 1) with
      | none => .ok []
      | some p => between line (p + sText.length + 1) (firstOf line ['}'] (p + sText.length + 1))

/-- `read_ds9_region_circles` (`pixfit-common.hpp:123-226`), without a colour: the reader of `Circles`, with the texts -/
def textLoop (env : Env K) : Circles.St K → List Str → List Str → Res (Option (Circles.St K × List Str))
  | s, ts, [] => .ok (some (s, ts))
  | s, ts, line :: lines => do
    match ← circleLine env s line with
    | none => .ok none
    | some s' =>
      if s'.regs.length = s.regs.length then textLoop env s' ts lines
      else do
        let t ← textOf line
        textLoop env s' (ts ++ [t]) lines

/-- `from_string` to a `float`, where the stream reads with `r` -/
def floatOf (r : Reader (Fl K)) (z : Fl K) (s : Str) : Option (Fl K) :=
  let x := fromString r flFallback s z
  if x.1 then some x.2 else none

/-- the three values of a text (`pixfit-reg2fits.cpp:20-35`); `flt` is `from_string` to a `float` -/
def convert (flt : Str → Option V) (t : Str) : Res (Option (Int × V × V)) := do
  let spl ← split t [',']
  match spl with
  | [a, b, c] =>
    let id := fromString (intReader ⟨false, 64⟩) noFallback a 0
    .ok (match id.1, flt b, flt c with
      | true, some z, some m => some (id.2, z, m)
      | _, _, _ => none)
  | _ => .ok none

/-- the loop on the texts (`pixfit-reg2fits.cpp:18-35`) -/
def convertAll (flt : Str → Option V) : List Str → Res (Option (List (Int × V × V)))
  | [] => .ok (some [])
  | t :: ts => do
    match ← convert flt t with
    | none => .ok none
    | some x => do
      match ← convertAll flt ts with
      | none => .ok none
      | some xs => .ok (some (x :: xs))

/-- `pixfit-reg2fits`: the rows of the table, position and values; `none` for an error. Without circles, `regs(_,0)` stops the program. -/
def reg2fits (env : Env K) (flt : Str → Option V) (lines : List Str) : Res (Option (List ((K × K) × (Int × V × V)))) := do
  match ← textLoop env ⟨false, []⟩ [] lines with
  | none => .ok none
  | some (s, ts) =>
    if s.physical then .ok none
    else do
      match ← convertAll flt ts with
      | none => .ok none
      | some xs => if s.regs = [] then .abort else .ok (some ((s.regs.map fun c => (c.1, c.2.1)).zip xs))

/-! ### C229 -/

/-- the sources in a circle: kept, and at most at a radius from its centre -/
def Inside [LinearOrder K] (conv : K → K) (keep : List Bool) (d : Nat → K) (r : K) (k : Nat) : Prop := keep[k]? = some true ∧ conv (d k) ≤ r

theorem getD_lt {l : List Nat} (i : Nat) (z : Nat) (h : i < l.length) : l.getD i z = l[i] := by
  rw [List.getD_eq_getElem?_getD, List.getElem?_eq_getElem h]; rfl

theorem mapM_get {α β : Type} (F : α → Res β) (z : List α) (g : Nat → β) (h : ∀ i (hi : i < z.length), F z[i] = .ok (g i)) : z.mapM F = .ok ((List.range z.length).map g) := by
  induction z generalizing g with
  | nil => rfl
  | cons a z ih =>
    have h0 : F a = .ok (g 0) := h 0 (by simp)
    rw [List.mapM_cons, h0, Res.ok_bind, ih (fun i => g (i + 1)) (fun i hi => h (i + 1) (by simpa using hi)), Res.ok_bind, List.length_cons, List.range_succ_eq_map, List.map_cons, List.map_map]
    rfl

theorem listed_eq [LinearOrder K] (conv : K → K) (hc : Monotone conv) (d : Nat → K) (r : K) (l : List Nat) (n : Nat) (hl : l.Pairwise fun a b => d a < d b ∨ (d a = d b ∧ a < b)) :
    listed conv r ((l.map fun j => (((d j : K) : WithTop K), some j)) ++ List.replicate n (⊤, none)) = .ok (l.filter fun j => conv (d j) ≤ r) := by
  induction l with
  | nil =>
    cases n with
    | zero => rfl
    | succ n =>
      rw [List.replicate_succ, List.map_nil, List.nil_append]
      unfold listed
      exact if_pos (WithTop.coe_lt_top r)
  | cons a l ih =>
    rw [List.pairwise_cons] at hl
    rw [List.map_cons, List.cons_append]
    unfold listed
    by_cases h : conv (d a) ≤ r
    · rw [if_neg (by simpa using h)]
      dsimp only
      rw [ih hl.2, Res.ok_bind, List.filter_cons_of_pos (by simpa using h)]
    · have h' : (r : WithTop K) < ((d a : K) : WithTop K).map conv := by
        rw [WithTop.map_coe]; exact WithTop.coe_lt_coe.2 (not_le.1 h)
      rw [if_pos h', List.filter_eq_nil_iff.2]
      intro j hj
      have : d a ≤ d j := by
        rcases List.mem_cons.1 hj with rfl | hj
        · exact le_rfl
        · rcases hl.1 j hj with h1 | h1
          exacts [h1.le, h1.1.le]
      have := hc this
      simp only [decide_eq_true_eq, not_le]
      exact lt_of_lt_of_le (not_le.1 h) this

/-- filtering a sorted list at a threshold and taking its first elements -/
theorem filter_take {P : Nat → Bool} {l : List Nat} (n : Nat) (h : l.Pairwise fun a b => P b = true → P a = true) : (l.take n).filter P = (l.filter P).take n := by
  induction l generalizing n with
  | nil => simp
  | cons a l ih =>
    rw [List.pairwise_cons] at h
    cases n with
    | zero => simp
    | succ n =>
      rw [List.take_succ_cons]
      by_cases hp : P a = true
      · rw [List.filter_cons_of_pos hp, List.filter_cons_of_pos hp, List.take_succ_cons, ih n h.2]
      · rw [List.filter_cons_of_neg hp, List.filter_cons_of_neg hp, ih n h.2]
        have e : l.filter P = [] := List.filter_eq_nil_iff.2 fun x hx hpx => hp (h.1 x hx hpx)
        rw [e]; simp

open Classical in
/-- For each circle: the kept sources in the circle, nearest first (the first of the catalogue among those as near), of which the `nsrc` first are written. Missing: circles with more than `nsrc` of them; a file without circles. -/
theorem C229_list_partial [LinearOrder K] (conv : K → K) (hc : Monotone conv) (keep : List Bool) (nsrc : Nat) (hn : 1 ≤ nsrc) (dist : Nat → Nat → K) (radius : List K) (hr : radius ≠ []) :
    ∃ out, findprior conv keep nsrc dist radius = .ok out ∧ out.length = radius.length ∧
      ∀ i r, radius[i]? = some r → ∃ l : List Nat, (∀ k, k ∈ l ↔ Inside conv keep (dist i) r k) ∧
        l.Pairwise (fun a b => dist i a < dist i b ∨ (dist i a = dist i b ∧ a < b)) ∧ out[i]? = some (l.take nsrc) := by
  unfold findprior
  dsimp only
  rw [if_neg hr]
  generalize hs : (List.range keep.length).filter (fun k => keep.getD k false) = sid
  have hmem : ∀ k, k ∈ sid ↔ keep[k]? = some true := by
    intro k
    rw [← hs, List.mem_filter, List.mem_range, List.getD_eq_getElem?_getD]
    constructor
    · rintro ⟨h1, h2⟩
      rw [List.getElem?_eq_getElem h1] at h2 ⊢
      simpa using h2
    · intro h
      exact ⟨(List.getElem?_eq_some_iff.1 h).1, by rw [h]; rfl⟩
  have hlt : sid.Pairwise (· < ·) := by rw [← hs]; exact List.Pairwise.filter _ List.pairwise_lt_range
  obtain ⟨res, h1, h2, -, h4, -⟩ := C56_brute (fun i j => dist i (sid.getD j 0)) true false nsrc radius.length sid.length hn
  rw [h1, Res.ok_bind]
  have key : ∀ i (hi : i < (res.fwd.zip radius).length), ∃ l : List Nat, (∀ k, k ∈ l ↔ Inside conv keep (dist i) ((res.fwd.zip radius)[i]).2 k) ∧
        l.Pairwise (fun a b => dist i a < dist i b ∨ (dist i a = dist i b ∧ a < b)) ∧
        (do let l ← listed conv ((res.fwd.zip radius)[i]).2 ((res.fwd.zip radius)[i]).1
            l.mapM fun j => Res.rd sid j) = .ok (l.take nsrc) := by
    intro i hi
    have hi1 : i < res.fwd.length := by rw [List.length_zip] at hi; omega
    rw [List.getElem_zip]
    dsimp only
    generalize radius[i]'(by rw [List.length_zip] at hi; omega) = r
    obtain ⟨l, l1, l2, l3⟩ := h4 i _ (List.getElem?_eq_getElem hi1)
    rw [l3, listed_eq conv hc _ r (l.take nsrc) _ (l2.sublist (List.take_sublist _ _)), Res.ok_bind]
    have hlt' : ∀ j ∈ l, j < sid.length := fun j hj => ((l1 j).1 hj).1
    have hsort : l.Pairwise fun a b => (decide (conv (dist i (sid.getD b 0)) ≤ r)) = true → (decide (conv (dist i (sid.getD a 0)) ≤ r)) = true := by
      refine l2.imp fun {a b} h hb => ?_
      rw [decide_eq_true_eq] at hb ⊢
      refine le_trans (hc ?_) hb
      rcases h with h | h
      exacts [h.le, h.1.le]
    rw [filter_take nsrc hsort]
    refine ⟨(l.filter fun j => decide (conv (dist i (sid.getD j 0)) ≤ r)).map fun j => sid.getD j 0, fun k => ?_, ?_, ?_⟩
    · rw [List.mem_map]
      unfold Inside
      rw [← hmem]
      constructor
      · rintro ⟨j, hj, rfl⟩
        rw [List.mem_filter, decide_eq_true_eq] at hj
        have := hlt' j hj.1
        refine ⟨?_, hj.2⟩
        rw [getD_lt _ _ this]
        exact List.getElem_mem _
      · rintro ⟨g1, g2⟩
        obtain ⟨j, hj, rfl⟩ := List.getElem_of_mem g1
        have e : sid.getD j 0 = sid[j] := getD_lt _ _ hj
        refine ⟨j, ?_, e⟩
        rw [List.mem_filter, decide_eq_true_eq, e]
        exact ⟨(l1 j).2 ⟨hj, by simp⟩, g2⟩
    · rw [List.pairwise_map]
      refine List.Pairwise.imp_of_mem (fun {a b} ha hb h => ?_) (l2.sublist List.filter_sublist)
      have ha := hlt' a (List.mem_filter.1 ha).1
      have hb := hlt' b (List.mem_filter.1 hb).1
      rcases h with h | ⟨h, h'⟩
      · exact Or.inl h
      · refine Or.inr ⟨h, ?_⟩
        rw [getD_lt _ _ ha, getD_lt _ _ hb]
        exact List.pairwise_iff_getElem.1 hlt a b ha hb h'
    · rw [← List.map_take]
      apply Res.mapM_ok
      intro j hj
      have := hlt' j (List.mem_filter.1 (List.mem_of_mem_take hj)).1
      rw [Res.rd_lt this, getD_lt _ _ this]
  choose! L hL using key
  have hlen : (res.fwd.zip radius).length = radius.length := by rw [List.length_zip, h2, Nat.min_self]
  refine ⟨(List.range (res.fwd.zip radius).length).map fun i => (L i).take nsrc, ?_, by simp [h2], fun i r hir => ?_⟩
  · exact mapM_get _ _ _ fun i hi => (hL i hi).2.2
  · have hi : i < radius.length := (List.getElem?_eq_some_iff.1 hir).1
    obtain ⟨g1, g2, -⟩ := hL i (by omega)
    refine ⟨L i, ?_, g2, ?_⟩
    · have : ((res.fwd.zip radius)[i]'(by omega)).2 = r := by
        rw [List.getElem_zip]
        exact (List.getElem?_eq_some_iff.1 hir).2
      rw [this] at g1
      exact g1
    · rw [List.getElem?_map, List.getElem?_range (by omega)]
      rfl

/-- A circle with more than `nsrc` sources: the farthest ones are lost. -/
theorem C229_many_refuted : ∃ (keep : List Bool) (dist : Nat → Nat → ℚ), findprior id keep 2 dist [10] = .ok [[2, 0]] ∧ Inside id keep (dist 0) 10 1 :=
  ⟨[true, true, true], fun _ k => [4, 6, 1].getD k 0, by decide +kernel, by unfold Inside; decide +kernel⟩

/-- A region file without circles stops the program. -/
theorem C229_empty_refuted [LinearOrder K] (conv : K → K) (keep : List Bool) (nsrc : Nat) (dist : Nat → Nat → K) : findprior conv keep nsrc dist [] = .abort := rfl

/-- not vacuous: two circles, the source 1 is not kept, two as near as each other, nothing in the second one -/
example : findprior (K := ℚ) id [true, false, true, true, true] 4 (fun i k => if i = 0 then [4, 0, 4, 1, 10].getD k 0 else 8) [5, 2] = .ok [[3, 0, 2], []] := by decide +kernel

/-! ### C230 -/

/-- the texts of a source are those that are expected: the coordinates are sexagesimal, without blanks around; no comma in the numbers. Their values are `p`, `z` and `m`; `read_float` skips the blank before them. -/
structure RowIs (env : Env K) (flt : Str → Option V) (r : Row) (p : K × K) (z m : V) : Prop where
  ra : IsTrim blanks r.ra r.ra ∧ ',' ∉ r.ra ∧ ')' ∉ r.ra ∧ ':' ∈ r.ra
  dec : IsTrim blanks r.dec r.dec ∧ ',' ∉ r.dec ∧ ')' ∉ r.dec
  pos : env.sex r.ra r.dec = some p
  id : r.id < 2 ^ 64
  ztext : ',' ∉ r.z ∧ '}' ∉ r.z
  mtext : ',' ∉ r.m ∧ '}' ∉ r.m
  z : flt (' ' :: r.z) = some z
  m : flt (' ' :: r.m) = some m

/-- the text in the braces -/
def inText (r : Row) : Str := intToString r.id ++ ", ".toList ++ r.z ++ ", ".toList ++ r.m

theorem id_chars (n : Nat) : ',' ∉ intToString n ∧ '}' ∉ intToString n := by
  unfold intToString Verif.Sex.decInt
  rw [if_neg (by omega)]
  constructor <;> intro h <;> exact absurd (Verif.Io.digits_dec _ _ h) (by decide)

theorem row_says (r : Row) (h1 : IsTrim blanks r.ra r.ra ∧ ',' ∉ r.ra ∧ ')' ∉ r.ra) (h2 : IsTrim blanks r.dec r.dec ∧ ',' ∉ r.dec ∧ ')' ∉ r.dec) :
    Says (rowLine r) (.circle r.ra r.dec ("0.5".toList ++ ['"'])) := by
  have := Says.circle (t := "circle".toList) (a := r.ra) (b := r.dec) (c := "0.5\"".toList) (c' := "0.5\"".toList) (rest := " # width=3 text={".toList ++ inText r ++ ['}'])
    ⟨[], [], by decide, by simp, by simp, by decide, by decide⟩
    (by simp only [List.mem_cons, List.not_mem_nil, or_false, forall_eq_or_imp, forall_eq]; exact ⟨h1.2, h2.2, by decide⟩) h1.1 h2.1
    ⟨[], [], by decide, by simp, by simp, by decide, by decide⟩
  have e : rowLine r = "circle".toList ++ '(' :: (r.ra ++ ',' :: (r.dec ++ ',' :: "0.5\"".toList)) ++ ')' :: (" # width=3 text={".toList ++ inText r ++ ['}']) := by
    unfold rowLine inText
    simp
  rw [e]
  exact this

theorem no_text (t : Str) : ∀ p < " width=3 ".toList.length, ¬ OccursAt sText (" width=3 ".toList ++ sText ++ t) p := by
  intro p hp h
  have hp : p < 9 := hp
  obtain ⟨u, hu⟩ := h
  have e0 := congrArg (fun l : Str => l[0]?) hu
  have e1 := congrArg (fun l : Str => l[1]?) hu
  simp only [List.getElem?_drop] at e0 e1
  match p, hp with
  | 0, _ => simp [sText] at e0
  | 1, _ => simp [sText] at e0
  | 2, _ => simp [sText] at e0
  | 3, _ => simp [sText] at e0
  | 4, _ => simp [sText] at e1
  | 5, _ => simp [sText] at e0
  | 6, _ => simp [sText] at e0
  | 7, _ => simp [sText] at e0
  | 8, _ => simp [sText] at e0

theorem row_text (r : Row) (h1 : ')' ∉ r.ra) (h2 : ')' ∉ r.dec) (hz : '}' ∉ r.z) (hm : '}' ∉ r.m) : textOf (rowLine r) = .ok (inText r) := by
  have hin : '}' ∉ inText r := by
    unfold inText
    simp only [List.mem_append, not_or]
    exact ⟨⟨⟨⟨(id_chars _).2, by decide⟩, hz⟩, by decide⟩, hm⟩
  generalize hA : r.ra ++ ',' :: (r.dec ++ ',' :: "0.5\"".toList) = A
  have hAp : ')' ∉ A := by
    rw [← hA]
    simp only [List.mem_append, List.mem_cons, not_or]
    exact ⟨h1, by decide, h2, by decide, by decide⟩
  have e : rowLine r = "circle".toList ++ '(' :: (A ++ ')' :: (" #".toList ++ (" width=3 ".toList ++ sText ++ ('{' :: (inText r ++ ['}']))))) := by
    rw [← hA]
    unfold rowLine inText
    simp [sText]
  unfold textOf
  have f1 : firstOf (rowLine r) ['('] 0 = some 6 := by
    rw [e]; exact firstOf_paren (by decide)
  have f2 : firstOf (rowLine r) [')'] (6 + 1) = some (7 + A.length) := by
    have := firstOf_append (d := "circle(".toList) (a := A) (c := ')') (t := " #".toList ++ (" width=3 ".toList ++ sText ++ ('{' :: (inText r ++ ['}'])))) hAp
    rw [e]
    simpa using this
  have f3 : firstOf (rowLine r) ['#'] (7 + A.length) = some (7 + A.length + 2) := by
    have := firstOf_append (d := "circle(".toList ++ A) (a := ") ".toList) (c := '#') (t := (" width=3 ".toList ++ sText ++ ('{' :: (inText r ++ ['}'])))) (by decide)
    rw [e]
    simpa [Nat.add_comm, Nat.add_left_comm, Nat.add_assoc] using this
  have f4 : sfind (rowLine r) sText (7 + A.length + 2 + 1) = some (7 + A.length + 12) := by
    have := sfind_append_some (d := "circle(".toList ++ A ++ ") #".toList) (a := " width=3 ".toList) (pat := sText) (t := '{' :: (inText r ++ ['}'])) (no_text _)
    rw [e]
    simpa [Nat.add_comm, Nat.add_left_comm, Nat.add_assoc] using this
  have f5 : firstOf (rowLine r) ['}'] (7 + A.length + 12 + sText.length + 1) = some (7 + A.length + 12 + sText.length + 1 + (inText r).length) := by
    have := firstOf_append (d := "circle(".toList ++ A ++ ") # width=3 text={".toList) (a := inText r) (c := '}') (t := []) hin
    rw [e]
    simpa [sText, Nat.add_comm, Nat.add_left_comm, Nat.add_assoc] using this
  rw [f1]
  dsimp only [Option.bind]
  rw [f2]
  dsimp only
  rw [f3]
  dsimp only
  rw [f4]
  dsimp only
  rw [f5]
  unfold between
  dsimp only
  have e' : rowLine r = ("circle(".toList ++ A ++ ") # width=3 text={".toList) ++ (inText r ++ ['}']) := by
    rw [e]
    simp [sText]
  have hl : ("circle(".toList ++ A ++ ") # width=3 text={".toList).length = 7 + A.length + 12 + sText.length + 1 := by
    simp [sText]; omega
  rw [substr_ok (by rw [e', List.length_append, hl]; omega), e', ← hl, List.drop_left]
  congr 1
  rw [Nat.add_sub_cancel_left, List.take_left]

theorem row_split (r : Row) (hz : ',' ∉ r.z) (hm : ',' ∉ r.m) : split (inText r) [','] = .ok [intToString r.id, ' ' :: r.z, ' ' :: r.m] := by
  have := C34_split_collapse [intToString r.id, ' ' :: r.z, ' ' :: r.m] ',' (by simp) (by
    simp only [List.mem_cons, List.not_mem_nil, or_false, forall_eq_or_imp, forall_eq, not_or]
    exact ⟨(id_chars _).1, ⟨by decide, hz⟩, by decide, hm⟩)
  rw [collapseSep_eq] at this
  unfold inText
  simpa [List.intercalate] using this

theorem row_id (n : Nat) (h : n < 2 ^ 64) : fromString (intReader ⟨false, 64⟩) noFallback (intToString n) 0 = (true, (n : Int)) :=
  C143_int_round_trip ⟨false, 64⟩ n 0 (by simp [IntTy.lo]) (by simp only [IntTy.hi]; rw [if_neg (by simp)]; omega)

theorem row_convert {flt : Str → Option V} (r : Row) (z m : V) (hid : r.id < 2 ^ 64) (hz : ',' ∉ r.z) (hm : ',' ∉ r.m) (h1 : flt (' ' :: r.z) = some z) (h2 : flt (' ' :: r.m) = some m) :
    convert flt (inText r) = .ok (some ((r.id : Int), z, m)) := by
  unfold convert
  rw [row_split r hz hm, Res.ok_bind]
  dsimp only
  rw [row_id _ hid, h1, h2]

/-- the header -/
theorem header (env : Env K) (lines : List Str) :
    textLoop env ⟨false, []⟩ [] (["# Region file format: DS9 version 4.1".toList,
   "global color=green dashlist=8 3 width=2 font=\"helvetica 10 normal roman\"select=1 highlite=1 dash=0 fixed=0 edit=1 move=1 delete=1 include=1 source=1".toList,
   "fk5".toList] ++ lines) = textLoop env ⟨false, []⟩ [] lines := by
  have s1 : Says "# Region file format: DS9 version 4.1".toList .skip := .comment (t := "# Region file format: DS9 version 4.1".toList) ⟨[], [], by simp, by simp, by simp, by simp [blanks], by simp [blanks]⟩ (by decide)
  have s2 : Says "global color=green dashlist=8 3 width=2 font=\"helvetica 10 normal roman\"select=1 highlite=1 dash=0 fixed=0 edit=1 move=1 delete=1 include=1 source=1".toList .skip := by
    have e : "global color=green dashlist=8 3 width=2 font=\"helvetica 10 normal roman\"select=1 highlite=1 dash=0 fixed=0 edit=1 move=1 delete=1 include=1 source=1".toList = sGlobal ++ " color=green dashlist=8 3 width=2 font=\"helvetica 10 normal roman\"select=1 highlite=1 dash=0 fixed=0 edit=1 move=1 delete=1 include=1 source=1".toList := by decide +kernel
    rw [e]
    exact .global _
  have s3 : Says "fk5".toList (.system false) := .sky ⟨[], [], by simp, by simp, by simp, by simp [blanks], by simp [blanks]⟩
  rw [List.cons_append, List.cons_append, List.cons_append, List.nil_append]
  conv_lhs =>
    unfold textLoop
    rw [circleLine_eq env _ s1]
  dsimp only
  rw [Res.ok_bind]
  dsimp only
  rw [if_pos rfl]
  conv_lhs =>
    unfold textLoop
    rw [circleLine_eq env _ s2]
  dsimp only
  rw [Res.ok_bind]
  dsimp only
  rw [if_pos rfl]
  conv_lhs =>
    unfold textLoop
    rw [circleLine_eq env _ s3]
  dsimp only
  rw [Res.ok_bind]
  dsimp only
  rw [if_pos rfl]

/-- the positions and texts of the rows -/
theorem rows_read (env : Env K) (h05 : K) (hnum : env.num "0.5".toList = some h05) (rows : List (Row × (K × K))) (s : List (Circ K)) (ts : List Str)
    (h : ∀ x ∈ rows, (IsTrim blanks x.1.ra x.1.ra ∧ ',' ∉ x.1.ra ∧ ')' ∉ x.1.ra ∧ ':' ∈ x.1.ra) ∧ (IsTrim blanks x.1.dec x.1.dec ∧ ',' ∉ x.1.dec ∧ ')' ∉ x.1.dec) ∧
      env.sex x.1.ra x.1.dec = some x.2 ∧ '}' ∉ x.1.z ∧ '}' ∉ x.1.m) :
    textLoop env ⟨false, s⟩ ts (rows.map fun x => rowLine x.1) = .ok (some (⟨false, s ++ rows.map fun x => (x.2.1, x.2.2, h05)⟩, ts ++ rows.map fun x => inText x.1)) := by
  induction rows generalizing s ts with
  | nil => simp [textLoop]
  | cons x rows ih =>
    obtain ⟨g1, g2, g3, g4, g5⟩ := h x (by simp)
    rw [List.map_cons]
    unfold textLoop
    rw [circleLine_eq env _ (row_says x.1 ⟨g1.1, g1.2.1, g1.2.2.1⟩ g2)]
    dsimp only
    have hc : IsCircle env false x.1.ra x.1.dec ("0.5".toList ++ ['"']) (x.2.1, x.2.2, h05) := .sexagesimal g1.2.2.2 g3 hnum
    rw [readCircle_eq hc]
    show (if (s ++ [(x.2.1, x.2.2, h05)]).length = s.length then _ else _) = _
    rw [if_neg (by simp), row_text x.1 g1.2.2.1 g2.2.2 g4 g5, Res.ok_bind, ih _ _ fun y hy => h y (by simp [hy])]
    simp

theorem convertAll_eq {flt : Str → Option V} (ts : List Str) (xs : List (Int × V × V)) (h : List.Forall₂ (fun t x => convert flt t = .ok (some x)) ts xs) : convertAll flt ts = .ok (some xs) := by
  induction h with
  | nil => rfl
  | cons h _ ih =>
    unfold convertAll
    rw [h, Res.ok_bind]
    dsimp only
    rw [ih, Res.ok_bind]

/-- The table of `pixfit-reg2fits` has the sources of the file of `pixfit-findprior`, in the same order: positions, identifiers, redshifts and masses. Missing: a file without sources; numbers that are not finite. -/
theorem C230_round_trip_partial (env : Env K) (flt : Str → Option V) (h05 : K) (hnum : env.num "0.5".toList = some h05) (rows : List (Row × (K × K) × V × V)) (hne : rows ≠ [])
    (h : ∀ x ∈ rows, RowIs env flt x.1 x.2.1 x.2.2.1 x.2.2.2) :
    reg2fits env flt (priorFile (rows.map Prod.fst)) = .ok (some (rows.map fun x => (x.2.1, ((x.1.id : Int), x.2.2.1, x.2.2.2)))) := by
  unfold reg2fits priorFile
  have := rows_read env h05 hnum (rows.map fun x => (x.1, x.2.1)) [] [] (by
    intro y hy
    obtain ⟨x, hx, rfl⟩ := List.mem_map.1 hy
    have := h x hx
    exact ⟨this.ra, this.dec, this.pos, this.ztext.2, this.mtext.2⟩)
  rw [header, List.map_map]
  rw [List.map_map] at this
  have e : (rowLine ∘ Prod.fst : Row × (K × K) × V × V → Str) = (fun x : Row × K × K => rowLine x.1) ∘ fun x => (x.1, x.2.1) := rfl
  rw [e, this, Res.ok_bind]
  dsimp only
  rw [if_neg (by simp), convertAll_eq _ (rows.map fun x => ((x.1.id : Int), x.2.2.1, x.2.2.2)), Res.ok_bind]
  · dsimp only
    rw [if_neg (by simpa using hne), List.nil_append, List.map_map, List.map_map]
    congr 2
    rw [List.zip_map']
    rfl
  · rw [List.nil_append, List.map_map, List.forall₂_map_left_iff, List.forall₂_map_right_iff]
    rw [List.forall₂_same]
    intro x hx
    have := h x hx
    exact row_convert x.1 _ _ this.id this.ztext.1 this.mtext.1 this.z this.m

/-- The program stops when the file has no source. -/
theorem C230_empty_refuted (env : Env K) (flt : Str → Option V) : reg2fits env flt (priorFile []) = .abort := by
  unfold reg2fits priorFile
  rw [header]
  rfl

/-- `from_string` accepts `nan`, but not with a blank before, as `pixfit-findprior` writes it: one source of unknown redshift (its mass above `mmin`) and the file is not converted. `r` is any reader that, as the one of the streams, does not read `nan`. -/
theorem C230_nan_refuted (env : Env K) (r : Reader (Fl V)) (z0 : Fl V) (hr : (r "nan".toList).2.1 = true) (h05 : K) (hnum : env.num "0.5".toList = some h05)
    (ra dec m : Str) (p : K × K) (n : Nat) (hra : IsTrim blanks ra ra ∧ ',' ∉ ra ∧ ')' ∉ ra ∧ ':' ∈ ra) (hdec : IsTrim blanks dec dec ∧ ',' ∉ dec ∧ ')' ∉ dec)
    (hp : env.sex ra dec = some p) (hm : ',' ∉ m ∧ '}' ∉ m) :
    floatOf r z0 "nan".toList = some .nan ∧ reg2fits env (floatOf r z0) (priorFile [⟨ra, dec, n, "nan".toList, m⟩]) = .ok none := by
  have hx : ∀ s : Str, s.dropWhile Verif.Sex.isSp = "nan".toList → fromString r flFallback s z0 = match (flFallback s : Option (Fl V)) with | some w => (true, w) | none => (false, (r "nan".toList).1) := by
    intro s hs
    unfold fromString extract
    rw [hs, if_neg (by decide)]
    generalize hg : r "nan".toList = g at hr
    obtain ⟨v, b, rest⟩ := g
    dsimp only at hr ⊢
    subst hr
    rw [if_neg (show ¬ ((!true) = true) by decide)]
    cases (flFallback s : Option (Fl V)) <;> rfl
  constructor
  · unfold floatOf
    rw [hx _ (by decide)]
    rfl
  · have h1 : floatOf r z0 (' ' :: "nan".toList) = none := by
      unfold floatOf
      rw [hx _ (by decide)]
      rfl
    unfold reg2fits priorFile
    have := rows_read env h05 hnum [(⟨ra, dec, n, "nan".toList, m⟩, p)] [] [] (by simpa using ⟨hra, hdec, hp, hm.2⟩)
    rw [header]
    rw [List.map_singleton] at this ⊢
    rw [this, Res.ok_bind]
    dsimp only
    rw [if_neg (by simp), List.map_singleton, List.nil_append]
    unfold convertAll convert
    rw [row_split _ (by show ',' ∉ "nan".toList; decide) hm.1, Res.ok_bind]
    dsimp only
    rw [h1]
    cases (fromString (intReader ⟨false, 64⟩) noFallback (intToString n) 0).1 <;> rfl

/-- not vacuous: the position is found from the first characters, the numbers have one digit -/
example : reg2fits (K := Nat) ⟨fun s => some s.length, fun a b => some (a.length, b.length)⟩ (fun s => some s.length)
    (priorFile [⟨"10:00:00".toList, "2:0:0".toList, 124, "1.5".toList, "10".toList⟩, ⟨"1:0:0".toList, "-2:0:00.5".toList, 7, "2".toList, "11.25".toList⟩]) =
    .ok (some [((8, 5), (124, 4, 3)), ((5, 9), (7, 2, 6))]) := by decide +kernel
example : RowIs (K := Nat) (V := Nat) ⟨fun s => some s.length, fun a b => some (a.length, b.length)⟩ (fun s => some s.length)
    ⟨"10:00:00".toList, "2:0:0".toList, 124, "1.5".toList, "10".toList⟩ (8, 5) 4 3 :=
  ⟨⟨⟨[], [], by simp, by simp, by simp, by simp [blanks], by simp [blanks]⟩, by decide, by decide, by decide⟩, ⟨⟨[], [], by simp, by simp, by simp, by simp [blanks], by simp [blanks]⟩, by decide, by decide⟩,
    rfl, by decide, by decide, by decide, rfl, rfl⟩

end Verif.FindPrior
