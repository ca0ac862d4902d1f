import Verif.Io.ArgvListProps
import Verif.Str.SplitProps
/-!
# Properties C160, C161: the arguments of the program, missing names, the text of the arguments
-/
namespace Verif.Io
open Verif Verif.Str

theorem mapM_trim (l : List Str) : ∃ es, (l.mapM fun a => do
      let a ← trim a blanks
      .ok (⟨a, false, true⟩ : ArgVar)) = Res.ok es ∧
    List.Forall₂ (fun a e => IsTrim blanks a e.arg ∧ e.read = false ∧ e.valid = true) l es := by
  induction l with
  | nil => exact ⟨[], rfl, .nil⟩
  | cons a l ih =>
    obtain ⟨es, h1, h2⟩ := ih
    obtain ⟨m, h3, h4⟩ := C36_trim a blanks
    refine ⟨⟨m, false, true⟩ :: es, ?_, .cons ⟨h4, rfl, rfl⟩ h2⟩
    rw [List.mapM_cons, h3, Res.ok_bind, Res.ok_bind, h1, Res.ok_bind]
    rfl

/-- **C160**: the arguments of the program are those that follow its name, without the blanks around them; none is marked as read, so that
the ones that no variable reads are reported. -/
theorem C160_program (prog : Str) (args : List Str) : ∃ es, programArgs (prog :: args) = .ok es ∧
    List.Forall₂ (fun a e => IsTrim blanks a e.arg ∧ e.read = false ∧ e.valid = true) args es ∧ unrecognized es = es.map (·.arg) := by
  obtain ⟨es, h1, h2⟩ := mapM_trim args
  refine ⟨es, ?_, h2, ?_⟩
  · unfold programArgs
    cases args with
    | nil =>
      cases h2
      rfl
    | cons a as =>
      rw [if_neg (by simp)]
      exact h1
  · unfold unrecognized
    rw [List.filter_eq_self.2]
    intro e he
    obtain ⟨i, hi, rfl⟩ := List.mem_iff_getElem.1 he
    have hl := h2.length_eq
    have := (List.forall₂_iff_get.1 h2).2 i (by omega) hi
    have h3 : es[i].read = false := this.2.1
    simp [h3]

example : programArgs ["./p".toList, " n=5 ".toList, "q".toList] = .ok [⟨"n=5".toList, false, true⟩, ⟨"q".toList, false, true⟩] := by
  decide +kernel

/-- **C160**: no name of a program, no argument. -/
theorem C160_no_program : programArgs [] = .ok [] := rfl

/-- **C160**: reading more variables than the text names is an error, once the named ones are read. -/
theorem C160_missing {V : Type} (ss extra : List (Slot V)) (names : Str) (ns : List Str) (h : ArgsText ss names ns) (he : extra ≠ [])
    (hlast : ∀ s, ss.getLast? = some s → s.label = none) :
    ∀ es r, readArgs ss names es = .ok r → readArgs (ss ++ extra) names es = .abort := by
  induction ss generalizing names ns with
  | nil => cases h
  | cons s ss ih =>
    intro es r hr
    cases h with
    | one _ _ n h =>
      have hl : s.label = none := hlast s (by simp)
      cases h with
      | plain _ _ hl hc hn =>
        simp only [readArgs, hl, varName_last _ _ hc hn, Res.ok_bind, List.cons_append, List.nil_append] at hr ⊢
        obtain ⟨v, hv, -⟩ := Res.bind_eq_ok.1 hr
        rw [hv, Res.ok_bind]
        simp [he]
      | label a _ hl' ha => rw [hl] at hl'; cases hl'
    | cons _ e n _ names ns h hs =>
      have ih' := ih (' ' :: names) ns (argsText_blank hs) (fun s' hs' => by
        refine hlast s' ?_
        rw [List.getLast?_cons, hs']; rfl)
      cases h with
      | plain _ _ hl hc hn =>
        simp only [readArgs, hl, varName_more _ _ _ hc hn, Res.ok_bind, List.cons_append] at hr ⊢
        obtain ⟨v, hv, hr'⟩ := Res.bind_eq_ok.1 hr
        obtain ⟨w, hw, -⟩ := Res.bind_eq_ok.1 hr'
        rw [hv, Res.ok_bind]
        rw [ih' _ _ hw]
        rfl
      | label a _ hl ha =>
        simp only [readArgs, hl, afterParen_more _ _ ha, Res.ok_bind, List.cons_append] at hr ⊢
        obtain ⟨v, hv, hr'⟩ := Res.bind_eq_ok.1 hr
        obtain ⟨w, hw, -⟩ := Res.bind_eq_ok.1 hr'
        rw [hv, Res.ok_bind]
        rw [ih' _ _ hw]
        rfl

example : readArgs [natSlot none 3, natSlot none 8, natSlot none 9] "n, k".toList [⟨"n=5".toList, false, true⟩] = .abort := by
  decide +kernel

/-- **C161**: the text of the arguments is the arguments in order, separated by one space. -/
theorem C161_text (es : List ArgVar) : serialize es = List.intercalate [' '] (es.map (·.arg)) := collapseSep_eq _ _

example : serialize [⟨"n=5".toList, true, true⟩, ⟨"q".toList, false, true⟩] = "n=5 q".toList := by decide +kernel

end Verif.Io
