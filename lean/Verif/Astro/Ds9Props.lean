import Verif.Astro.Ds9
import Verif.Str.SplitProps
import Verif.Str.TrimProps
import Verif.Astro.SexProps
import Mathlib.Algebra.Field.Rat
import Mathlib.Data.Rat.Floor
import Mathlib.Tactic.IntervalCases
import Mathlib.Tactic.Ring
import Mathlib.Tactic.FieldSimp
/-!
# C115: region files
-/
namespace Verif.Ds9
open Verif Verif.Str

variable {K : Type}

/-! ### Reading never fails -/

theorem substr_ok {s : Str} {p n : Nat} (h : p ≤ s.length) : substr s p n = .ok ((s.drop p).take n) := by
  unfold substr; rw [if_neg (by omega)]

theorem substrFrom_ok {s : Str} {p : Nat} (h : p ≤ s.length) : substrFrom s p = .ok (s.drop p) := by
  unfold substrFrom; rw [if_neg (by omega)]

theorem trim_ok (s cs : Str) : ∃ m, trim s cs = .ok m := (C36_trim s cs).imp fun _ h => h.1

theorem between_ok {line : Str} {pos : Nat} (e : Option Nat) (h : pos ≤ line.length) : ∃ t, between line pos e = .ok t := by
  cases e with
  | none => exact ⟨_, substrFrom_ok h⟩
  | some e => exact ⟨_, substr_ok h⟩

theorem value_ok (line key : Str) (start : Nat) : ∃ o, value line key start = .ok o := by
  unfold value
  cases h : sfind line key start with
  | none => exact ⟨none, rfl⟩
  | some p =>
    obtain ⟨-, h1, h2, -⟩ := sfind_some.1 h
    have h3 := h2.le h1
    obtain ⟨t, ht⟩ := between_ok (firstOf line [' ', '\t'] (p + key.length)) h3
    obtain ⟨m, hm⟩ := trim_ok t blanks
    simp only [ht, Res.ok_bind, hm]
    exact ⟨some m, rfl⟩

theorem readDim_ok (env : Env K) (ph : Bool) (t : Str) : ∃ o, readDim env ph t = .ok o := by
  unfold readDim
  cases ph with
  | true => exact ⟨_, rfl⟩
  | false =>
    simp only [Bool.false_eq_true, if_false]
    by_cases h : endsWith t ['"'] = true
    · rw [if_pos h]
      obtain ⟨u, rfl⟩ := (C36_ends_with t ['"']).1 h
      rw [(C36_erase_end u ['"']).1]
      exact ⟨_, rfl⟩
    · rw [if_neg h]; exact ⟨_, rfl⟩

/-- the regions that the other functions can handle -/
def Shape (r : Region K) : Prop := (r.type = sCircle ∧ r.params.length = 3) ∨ (r.type = sBox ∧ r.params.length = 5)

theorem params_ok [Ring K] (env : Env K) (ph : Bool) (type : Str) (args : List Str) :
    ∃ o, params env ph type args = .ok o ∧ ∀ ps, o = some ps → (type = sCircle ∧ ps.length = 3) ∨ (type = sBox ∧ ps.length = 5) := by
  unfold params
  rcases args with _ | ⟨a, _ | ⟨b, rest⟩⟩
  · exact ⟨none, rfl, by simp⟩
  · exact ⟨none, rfl, by simp⟩
  simp only
  cases centre env ph a b with
  | none => exact ⟨none, rfl, by simp⟩
  | some c =>
    simp only
    by_cases hc : type = sCircle
    · rw [if_pos hc]
      rcases rest with _ | ⟨r, _ | ⟨r2, rest⟩⟩
      · exact ⟨none, rfl, by simp⟩
      · obtain ⟨o, ho⟩ := readDim_ok env ph r
        simp only [ho, Res.ok_bind]
        cases o with
        | none => exact ⟨none, rfl, by simp⟩
        | some rad => exact ⟨_, rfl, fun ps hp => by cases hp; exact .inl ⟨hc, rfl⟩⟩
      · exact ⟨none, rfl, by simp⟩
    · rw [if_neg hc]
      by_cases hb : type = sBox
      · rw [if_pos hb]
        rcases rest with _ | ⟨w, _ | ⟨h, _ | ⟨an, _ | ⟨z, rest⟩⟩⟩⟩
        · exact ⟨none, rfl, by simp⟩
        · exact ⟨none, rfl, by simp⟩
        · exact ⟨none, rfl, by simp⟩
        · obtain ⟨o, ho⟩ := readDim_ok env ph w
          simp only [ho, Res.ok_bind]
          cases o with
          | none => exact ⟨none, rfl, by simp⟩
          | some wi =>
            obtain ⟨o2, ho2⟩ := readDim_ok env ph h
            simp only [ho2, Res.ok_bind]
            cases o2 with
            | none => exact ⟨none, rfl, by simp⟩
            | some he =>
              cases env.num an with
              | none => exact ⟨none, rfl, by simp⟩
              | some a => exact ⟨_, rfl, fun ps hp => by cases hp; exact .inr ⟨hb, rfl⟩⟩
        · exact ⟨none, rfl, by simp⟩
      · rw [if_neg hb]
        exact ⟨none, rfl, by simp⟩

theorem options_ok (line : Str) (epos : Option Nat) (color : Str) : ∃ o, options line epos color = .ok o := by
  unfold options
  cases epos.bind fun e => firstOf line ['#'] e with
  | none => exact ⟨_, rfl⟩
  | some spos =>
    obtain ⟨c, hc⟩ := value_ok line sColor (spos + 1)
    obtain ⟨t, ht⟩ := value_ok line sText (spos + 1)
    simp only [hc, ht, Res.ok_bind]
    exact ⟨_, rfl⟩

theorem mapM_trim_ok (l : List Str) : ∃ r, l.mapM (fun p => trim p blanks) = Res.ok r := by
  induction l with
  | nil => exact ⟨[], rfl⟩
  | cons a l ih =>
    obtain ⟨r, hr⟩ := ih
    obtain ⟨m, hm⟩ := trim_ok a blanks
    rw [List.mapM_cons, hm, Res.ok_bind, hr]
    exact ⟨_, rfl⟩

theorem readLine_ok [Ring K] (env : Env K) (s : St K) (line : Str) : ∃ s', readLine env s line = .ok s' ∧
    ((s'.regs = s.regs) ∨ ∃ r, s'.regs = s.regs ++ [r] ∧ Shape r ∧ r.physical = s.physical) := by
  obtain ⟨t, ht⟩ := trim_ok line blanks
  unfold readLine
  rw [ht, Res.ok_bind]
  by_cases h1 : line = [] ∨ t = [] ∨ t.head? = some '#'
  · rw [if_pos h1]; exact ⟨_, rfl, .inl rfl⟩
  rw [if_neg h1]
  by_cases h2 : beginsWith line sGlobal = true
  · rw [if_pos h2]
    obtain ⟨c, hc⟩ := value_ok line sColor 0
    rw [hc]
    exact ⟨_, rfl, .inl rfl⟩
  rw [if_neg h2]
  cases h3 : firstOf line ['('] 0 with
  | none =>
    simp only
    by_cases h4 : t = sPhysical
    · rw [if_pos h4]; exact ⟨_, rfl, .inl rfl⟩
    · rw [if_neg h4]; exact ⟨_, rfl, .inl rfl⟩
  | some spos =>
    have hsp : spos < line.length := (firstIn_some.1 h3).2.1
    obtain ⟨ty, hty⟩ := trim_ok ((line.drop 0).take spos) blanks
    simp only [substr_ok (Nat.zero_le _), Res.ok_bind, hty]
    obtain ⟨targs, hta⟩ := between_ok (firstOf line [')'] (spos + 1)) (show spos + 1 ≤ line.length by omega)
    rw [hta, Res.ok_bind]
    obtain ⟨ps, hps, -⟩ := C34_split targs [','] (by simp)
    rw [hps, Res.ok_bind]
    obtain ⟨args, hargs⟩ := mapM_trim_ok ps
    rw [hargs, Res.ok_bind]
    obtain ⟨o, ho, hsh⟩ := params_ok env s.physical ty args
    rw [ho, Res.ok_bind]
    cases o with
    | none => exact ⟨_, rfl, .inl rfl⟩
    | some ps =>
      obtain ⟨⟨c, tx⟩, hc⟩ := options_ok line (firstOf line [')'] (spos + 1)) s.color
      simp only [hc, Res.ok_bind]
      exact ⟨_, rfl, .inr ⟨_, rfl, hsh ps rfl, rfl⟩⟩

/-- **C115** any file can be read: a line that is not understood adds no region, and never aborts. The regions are added after those that are given, and all
are circles with three parameters or boxes with five. -/
theorem C115_total [Ring K] (env : Env K) (file : List Str) (regs : List (Region K)) :
    ∃ new, readRegions env file regs = .ok (regs ++ new) ∧ new.length ≤ file.length ∧ ∀ r ∈ new, Shape r := by
  have key : ∀ (file : List Str) (s : St K), ∃ s' new, file.foldlM (readLine env) s = .ok s' ∧ s'.regs = s.regs ++ new ∧
      new.length ≤ file.length ∧ ∀ r ∈ new, Shape r := by
    intro file
    induction file with
    | nil => exact fun s => ⟨s, [], rfl, by simp, by simp, by simp⟩
    | cons l file ih =>
      intro s
      obtain ⟨s1, h1, h2⟩ := readLine_ok env s l
      obtain ⟨s', new, h3, h4, h5, h6⟩ := ih s1
      rw [List.foldlM_cons, h1, Res.ok_bind]
      rcases h2 with h2 | ⟨r, h2, h7, -⟩
      · exact ⟨s', new, h3, by rw [h4, h2], by simp; omega, h6⟩
      · exact ⟨s', r :: new, h3, by rw [h4, h2]; simp, by simp; omega, by simpa [h7] using h6⟩
  obtain ⟨s', new, h1, h2, h3, h4⟩ := key file ⟨sGreen, false, regs⟩
  exact ⟨new, by unfold readRegions; rw [h1, Res.ok_bind, h2], h3, h4⟩

/-! ### The lines that are written -/

/-- the characters of a number -/
def numChars : Str := "0123456789+-.einfa".toList

/-- the contract of the conversions: the text of `x` is read as `rnd x`, the number rounded to the digits that are written -/
structure Fmt (env : Env K) (fmt : K → Str) (rnd : K → K) : Prop where
  num : ∀ x, env.num (fmt x) = some (rnd x)
  ne : ∀ x, fmt x ≠ []
  chars : ∀ x, ∀ c ∈ fmt x, c ∈ numChars

theorem trim_self {s cs : Str} (h1 : ∀ c, s.head? = some c → c ∉ cs) (h2 : ∀ c, s.getLast? = some c → c ∉ cs) : trim s cs = .ok s := by
  obtain ⟨m, h3, h4⟩ := C36_trim s cs
  rw [h3, isTrim_unique h4 ⟨[], [], by simp, by simp, by simp, h1, h2⟩]

theorem firstOf_append {d a t : Str} {c : Char} (h : c ∉ a) : firstOf (d ++ (a ++ c :: t)) [c] d.length = some (d.length + a.length) := by
  unfold firstOf
  rw [firstIn_some]
  refine ⟨by omega, by simp, ?_, fun j h1 h2 => ?_⟩
  · rw [inSet_iff]
    refine ⟨c, by simp, ?_⟩
    rw [List.getElem?_append_right (by omega), List.getElem?_append_right (by omega)]
    simp
  · rw [← Bool.not_eq_true, inSet_iff]
    rintro ⟨c', hc', hj⟩
    rw [List.mem_singleton] at hc'
    subst hc'
    rw [List.getElem?_append_right h1, List.getElem?_append_left (by omega)] at hj
    exact h (List.mem_of_getElem? hj)

theorem firstOf_none {s : Str} {c : Char} (p : Nat) (h : c ∉ s.drop p) : firstOf s [c] p = none := by
  unfold firstOf
  rw [firstIn_none]
  intro j h1 h2
  rw [← Bool.not_eq_true, inSet_iff]
  rintro ⟨c', hc', hj⟩
  rw [List.mem_singleton] at hc'
  subst hc'
  refine h (List.mem_of_getElem? (i := j - p) ?_)
  rw [List.getElem?_drop, ← hj]; congr 1; omega

/-- an argument: not empty, with no character that has a meaning -/
def Arg (a : Str) : Prop := a ≠ [] ∧ ∀ c ∈ a, c ∈ '"' :: numChars

theorem Arg.not {a : Str} (h : Arg a) {c : Char} (hc : c ∉ '"' :: numChars) : c ∉ a := fun h' => hc (h.2 c h')

/-- the arguments as they are written -/
def argText : List Str → Str
  | [] => []
  | [a] => a
  | a :: b :: l => a ++ [',', ' '] ++ argText (b :: l)

theorem argText_chars (A : List Str) (hA : ∀ a ∈ A, Arg a) : ∀ c ∈ argText A, c ∈ '"' :: ',' :: ' ' :: numChars := by
  induction A with
  | nil => simp [argText]
  | cons a A ih =>
    cases A with
    | nil =>
      intro c hc
      have := (hA a (by simp)).2 c hc
      simp only [List.mem_cons] at this ⊢
      tauto
    | cons b A =>
      intro c hc
      rw [argText, List.mem_append, List.mem_append] at hc
      rcases hc with (hc | hc) | hc
      · have := (hA a (by simp)).2 c hc
        simp only [List.mem_cons] at this ⊢
        tauto
      · simp only [List.mem_cons, List.not_mem_nil, or_false] at hc ⊢
        tauto
      · exact ih (fun x hx => hA x (by simp [hx])) c hc

/-- the pieces between commas -/
def argPieces : List Str → List Str
  | [] => []
  | a :: A => a :: A.map (' ' :: ·)

theorem argText_eq (A : List Str) : argText A = List.intercalate [','] (argPieces A) := by
  induction A with
  | nil => rfl
  | cons a A ih =>
    cases A with
    | nil => simp [argText, argPieces]
    | cons b A =>
      rw [argText, ih]
      cases A with
      | nil => simp [argPieces, List.intercalate]
      | cons c A => simp [argPieces, List.intercalate]

theorem trim_arg {a : Str} (h : Arg a) : trim a blanks = .ok a ∧ trim (' ' :: a) blanks = .ok a := by
  have hb : ∀ c ∈ a, c ∉ blanks := by
    intro c hc hc'
    have h1 := h.2 c hc
    have : ∀ c ∈ blanks, c ∉ '"' :: numChars := by decide
    exact this c hc' h1
  have hh : ∀ c, a.head? = some c → c ∉ blanks := fun c hc => hb c (List.mem_of_mem_head? hc)
  have hl : ∀ c, a.getLast? = some c → c ∉ blanks := fun c hc => hb c (List.mem_of_mem_getLast? hc)
  refine ⟨trim_self hh hl, ?_⟩
  obtain ⟨m, h3, h4⟩ := C36_trim (' ' :: a) blanks
  rw [h3, isTrim_unique h4 ⟨[' '], [], by simp, by simp [blanks], by simp, hh, hl⟩]

theorem argPieces_split (A : List Str) (hne : A ≠ []) (hA : ∀ a ∈ A, Arg a) : split (argText A) [','] = .ok (argPieces A) ∧
    (argPieces A).mapM (fun p => trim p blanks) = .ok A := by
  constructor
  · have h := C34_split_collapse (argPieces A) ',' (by cases A <;> simp_all [argPieces]) (by
      intro x hx
      cases A with
      | nil => simp [argPieces] at hx
      | cons a A =>
        simp only [argPieces, List.mem_cons, List.mem_map] at hx
        rcases hx with rfl | ⟨y, hy, rfl⟩
        · exact (hA x (by simp)).not (by decide)
        · rw [List.mem_cons, not_or]
          exact ⟨by decide, (hA y (by simp [hy])).not (by decide)⟩)
    rwa [collapseSep_eq, ← argText_eq] at h
  · cases A with
    | nil => rfl
    | cons a A =>
      rw [argPieces, List.mapM_cons, (trim_arg (hA a (by simp))).1, Res.ok_bind]
      have : (A.map (' ' :: ·)).mapM (fun p => trim p blanks) = Res.ok A := by
        refine Res.mapM_getElem (by simp) fun i h1 h2 => ?_
        rw [List.getElem_map]
        exact (trim_arg (hA _ (by simp))).2
      rw [this]; rfl

/-- a region line as it is written -/
theorem readLine_args [Ring K] (env : Env K) (s : St K) (type : Str) (ht : type = sCircle ∨ type = sBox) (A : List Str) (hne : A ≠ [])
    (hA : ∀ a ∈ A, Arg a) : readLine env s (type ++ ['('] ++ argText A ++ [')']) = (params env s.physical type A).bind fun o => match o with
      | none => .ok s
      | some ps => .ok { s with regs := s.regs ++ [⟨type, s.color, [], s.physical, ps⟩] } := by
  have htb : ∀ c ∈ type, c ∉ blanks ∧ c ≠ '(' ∧ c ≠ '#' ∧ c ≠ 'g' := by rcases ht with rfl | rfl <;> decide
  have htn : type ≠ [] := by rcases ht with rfl | rfl <;> decide
  obtain ⟨c0, t0, htc⟩ := List.exists_cons_of_ne_nil htn
  generalize hL : type ++ ['('] ++ argText A ++ [')'] = line
  have hhead : line.head? = some c0 := by rw [← hL, htc]; rfl
  have hc0 := htb c0 (by rw [htc]; simp)
  have htrim : trim line blanks = .ok line := by
    refine trim_self (fun c hc => ?_) (fun c hc => ?_)
    · rw [hhead] at hc; cases hc; exact hc0.1
    · rw [← hL, List.getLast?_append] at hc
      simp only [List.getLast?_singleton, Option.some_or, Option.some.injEq] at hc
      subst hc; decide
  have hln : line ≠ [] := by intro h; rw [h] at hhead; cases hhead
  have hch := argText_chars A hA
  have e1 : firstOf line ['('] 0 = some type.length := by
    have := firstOf_append (d := []) (a := type) (c := '(') (t := argText A ++ [')']) (fun h => (htb _ h).2.1 rfl)
    simpa [← hL] using this
  have e2 : firstOf line [')'] (type.length + 1) = some (type.length + 1 + (argText A).length) := by
    have := firstOf_append (d := type ++ ['(']) (a := argText A) (c := ')') (t := []) (fun h => absurd (hch _ h) (by decide))
    simpa [← hL] using this
  have e3 : firstOf line ['#'] (type.length + 1 + (argText A).length) = none := by
    apply firstOf_none
    have : line.drop (type.length + 1 + (argText A).length) = [')'] := by
      have hn : type.length + 1 + (argText A).length = (type ++ ['('] ++ argText A).length := by simp; omega
      rw [hn, ← hL, List.drop_left]
    rw [this]; decide
  have htt : trim type blanks = .ok type :=
    trim_self (fun c hc => (htb c (List.mem_of_mem_head? hc)).1) (fun c hc => (htb c (List.mem_of_mem_getLast? hc)).1)
  have l1 : type.length + 1 ≤ line.length := by rw [← hL]; simp
  have s1 : (line.drop 0).take type.length = type := by rw [← hL]; simp
  have s2 : (line.drop (type.length + 1)).take (type.length + 1 + (argText A).length - (type.length + 1)) = argText A := by
    have : line = (type ++ ['(']) ++ (argText A ++ [')']) := by rw [← hL]; simp
    rw [this, List.drop_append]
    simp
  obtain ⟨p1, p2⟩ := argPieces_split A hne hA
  unfold readLine
  rw [htrim, Res.ok_bind, if_neg, if_neg]
  · simp only [e1, substr_ok (Nat.zero_le _), Res.ok_bind, s1, htt, e2, between, substr_ok l1, s2, p1, p2]
    obtain ⟨o, ho, -⟩ := params_ok env s.physical type A
    rw [ho]
    simp only [Res.ok_bind]
    cases o with
    | none => rfl
    | some ps =>
      have ho : options line (some (type.length + 1 + (argText A).length)) s.color = .ok (s.color, []) := by
        unfold options
        simp only [Option.bind_some, e3]
      simp only [ho, Res.ok_bind]
      rfl
  · intro h
    rw [C36_begins_with] at h
    obtain ⟨u, hu⟩ := h
    rw [← hu] at hhead
    have : c0 = 'g' := by
      have : (sGlobal ++ u).head? = some 'g' := rfl
      rw [this] at hhead; cases hhead; rfl
    exact hc0.2.2.2 this
  · rintro (h | h | h)
    · exact hln h
    · exact hln h
    · rw [hhead] at h; cases h; exact hc0.2.2.1 rfl

/-! ### The header -/

theorem readLine_skip [Ring K] (env : Env K) (s : St K) (line t : Str) (ht : trim line blanks = .ok t) (h : t.head? = some '#') :
    readLine env s line = .ok s := by
  unfold readLine
  rw [ht, Res.ok_bind, if_pos (.inr (.inr h))]

theorem readLine_word [Ring K] (env : Env K) (s : St K) (line : Str) (ht : trim line blanks = .ok line) (h0 : line ≠ []) (h1 : line.head? ≠ some '#')
    (h2 : beginsWith line sGlobal = false) (h3 : firstOf line ['('] 0 = none) :
    readLine env s line = .ok (if line = sPhysical then { s with physical := true } else s) := by
  unfold readLine
  rw [ht, Res.ok_bind, if_neg (by simp [h0, h1]), h2]
  simp only [Bool.false_eq_true, if_false, h3]

theorem read_header [Ring K] (env : Env K) (s : St K) : header.foldlM (readLine env) s = .ok { s with color := sGreen } := by
  unfold header
  rw [List.foldlM_cons, readLine_skip env s _ "# Region file format: DS9 version 4.1".toList (by decide +kernel) (by decide +kernel), Res.ok_bind,
    List.foldlM_cons]
  have : readLine env s (("global color=green dashlist=8 3 width=1 font=\"helvetica 10 normal " ++
      "roman\" select=1 highlite=1 dash=0 fixed=0 edit=1 move=1 delete=1 include=1 source=1").toList) = .ok { s with color := sGreen } := by
    unfold readLine
    generalize hl : (("global color=green dashlist=8 3 width=1 font=\"helvetica 10 normal " ++
      "roman\" select=1 highlite=1 dash=0 fixed=0 edit=1 move=1 delete=1 include=1 source=1").toList) = line
    have h1 : trim line blanks = .ok line := by subst hl; decide +kernel
    have h2 : beginsWith line sGlobal = true := by subst hl; decide +kernel
    have h3 : value line sColor 0 = .ok (some sGreen) := by subst hl; decide +kernel
    have h4 : line ≠ [] := by subst hl; decide +kernel
    have h5 : line.head? ≠ some '#' := by subst hl; decide +kernel
    rw [h1, Res.ok_bind, if_neg (by simp [h4, h5]), if_pos h2, h3]
    rfl
  rw [this]
  rfl

/-! ### Round trips -/

/-- what is left of a region after it is written and read: the numbers are rounded, the colour and the text are lost -/
def back (rnd : K → K) (r : Region K) : Region K := ⟨r.type, sGreen, [], r.physical, r.params.map rnd⟩

/-- the parameters of a region line, in either mode -/
theorem Fmt.arg {env : Env K} {fmt : K → Str} {rnd : K → K} (hf : Fmt env fmt rnd) (x : K) : Arg (fmt x) :=
  ⟨hf.ne x, fun c hc => List.mem_cons_of_mem _ (hf.chars x c hc)⟩

theorem Fmt.argq {env : Env K} {fmt : K → Str} {rnd : K → K} (hf : Fmt env fmt rnd) (x : K) : Arg (fmt x ++ ['"']) := by
  refine ⟨by simp, fun c hc => ?_⟩
  rw [List.mem_append, List.mem_singleton] at hc
  rcases hc with hc | rfl
  · exact List.mem_cons_of_mem _ (hf.chars x c hc)
  · simp

theorem Fmt.centre [Ring K] {env : Env K} {fmt : K → Str} {rnd : K → K} (hf : Fmt env fmt rnd) (ph : Bool) (x y : K) :
    Ds9.centre env ph (fmt x) (fmt y) = some (if ph then (rnd x - 1, rnd y - 1) else (rnd x, rnd y)) := by
  unfold Ds9.centre
  rw [firstOf_none 0 (by rw [List.drop_zero]; exact (hf.arg x).not (by decide))]
  simp [hf.num]

theorem Fmt.dim {env : Env K} {fmt : K → Str} {rnd : K → K} (hf : Fmt env fmt rnd) (x : K) :
    readDim env true (fmt x) = .ok (some (rnd x)) ∧ readDim env false (fmt x ++ ['"']) = .ok (some (rnd x)) ∧
      readDim env false (fmt x) = .ok none := by
  refine ⟨by simp [readDim, hf.num], ?_, ?_⟩
  · unfold readDim
    rw [if_neg (by simp), if_pos ((C36_ends_with _ _).2 ⟨_, rfl⟩), (C36_erase_end _ _).1, Res.ok_bind, hf.num]
  · unfold readDim
    rw [if_neg (by simp), if_neg]
    intro h
    obtain ⟨u, hu⟩ := (C36_ends_with _ _).1 h
    have : '"' ∈ fmt x := by rw [← hu]; simp
    exact absurd (hf.chars x _ this) (by decide)

/-- the parameters with the centre moved by one pixel -/
def shifted [Ring K] : List K → List K
  | x :: y :: l => (x - 1) :: (y - 1) :: l
  | l => l

theorem write_read [Ring K] {env : Env K} {fmt : K → Str} {rnd : K → K} (hf : Fmt env fmt rnd) (s : St K) (r : Region K) (hr : Shape r) (q : Bool)
    (hqp : ¬ (q = true ∧ s.physical = true)) :
    ∃ line, writeRegion fmt (if q then ['"'] else []) r = .ok line ∧ readLine env s line = .ok (if q = s.physical then s else
      { s with regs := s.regs ++ [⟨r.type, s.color, [], s.physical, if q then r.params.map rnd else shifted (r.params.map rnd)⟩] }) := by
  rcases hr with ⟨h1, h2⟩ | ⟨h1, h2⟩
  · match hp : r.params, h2 with
    | [x, y, z], _ =>
      refine ⟨sCircle ++ ['('] ++ argText [fmt x, fmt y, fmt z ++ if q then ['"'] else []] ++ [')'], ?_, ?_⟩
      · unfold writeRegion
        rw [if_pos h1, hp, h1]
        simp [argText]
      · rw [readLine_args env s sCircle (.inl rfl) _ (by simp)]
        · unfold params
          simp only [hf.centre, if_pos]
          cases q with
          | true =>
            have : s.physical = false := by simpa using hqp
            simp [this, (hf.dim z).2.1, h1]
            rfl
          | false =>
            cases hph : s.physical with
            | true =>
              simp [(hf.dim z).1, h1, shifted]
              rfl
            | false =>
              simp [(hf.dim z).2.2]
              rfl
        · intro a ha
          simp only [List.mem_cons, List.not_mem_nil, or_false] at ha
          rcases ha with rfl | rfl | rfl
          · exact hf.arg _
          · exact hf.arg _
          · cases q
            · simpa using hf.arg z
            · exact hf.argq z
  · match hp : r.params, h2 with
    | [x, y, z, t, u], _ =>
      have hbc : r.type ≠ sCircle := by rw [h1]; decide
      have hbc' : sBox ≠ sCircle := by decide
      refine ⟨sBox ++ ['('] ++ argText [fmt x, fmt y, fmt z ++ (if q then ['"'] else []), fmt t ++ (if q then ['"'] else []), fmt u] ++ [')'], ?_, ?_⟩
      · unfold writeRegion
        rw [if_neg hbc, if_pos h1, hp, h1]
        simp [argText]
      · rw [readLine_args env s sBox (.inr rfl) _ (by simp)]
        · unfold params
          simp only [hf.centre, if_pos, if_neg hbc']
          cases q with
          | true =>
            have : s.physical = false := by simpa using hqp
            simp [this, (hf.dim z).2.1, (hf.dim t).2.1, hf.num, h1]
            rfl
          | false =>
            cases hph : s.physical with
            | true =>
              simp [(hf.dim z).1, (hf.dim t).1, hf.num, h1, shifted]
              rfl
            | false =>
              simp [(hf.dim z).2.2]
              rfl
        · intro a ha
          simp only [List.mem_cons, List.not_mem_nil, or_false] at ha
          rcases ha with rfl | rfl | rfl | rfl | rfl
          · exact hf.arg _
          · exact hf.arg _
          · cases q
            · simpa using hf.arg z
            · exact hf.argq z
          · cases q
            · simpa using hf.arg t
            · exact hf.argq t
          · exact hf.arg _

theorem write_read_all [Ring K] {env : Env K} {fmt : K → Str} {rnd : K → K} (hf : Fmt env fmt rnd) (q ph : Bool) (hqp : ¬ (q = true ∧ ph = true))
    (regs : List (Region K)) (hr : ∀ r ∈ regs, Shape r) (s : St K) (hs : s.physical = ph) :
    ∃ ls, regs.mapM (writeRegion fmt (if q then ['"'] else [])) = .ok ls ∧ ls.foldlM (readLine env) s = .ok (if q = ph then s else
      { s with regs := s.regs ++ regs.map fun r => ⟨r.type, s.color, [], ph, if q then r.params.map rnd else shifted (r.params.map rnd)⟩ }) := by
  induction regs generalizing s with
  | nil =>
    refine ⟨[], rfl, ?_⟩
    simp only [List.foldlM_nil, List.map_nil, List.append_nil, ite_self]
    rfl
  | cons r regs ih =>
    obtain ⟨l, h1, h2⟩ := write_read hf s r (hr r (by simp)) q (by rwa [hs])
    rw [hs] at h2
    obtain ⟨ls, h3, h4⟩ := ih (fun x hx => hr x (by simp [hx])) (if q = ph then s else
      { s with regs := s.regs ++ [⟨r.type, s.color, [], ph, if q then r.params.map rnd else shifted (r.params.map rnd)⟩] }) (by split <;> exact hs)
    refine ⟨l :: ls, by rw [List.mapM_cons, h1, Res.ok_bind, h3]; rfl, ?_⟩
    rw [List.foldlM_cons, h2, Res.ok_bind]
    by_cases hq : q = ph
    · simp only [if_pos hq] at h4 ⊢
      exact h4
    · simp only [if_neg hq, hs] at h4 ⊢
      rw [h4]
      simp

theorem mapM_congr {α β : Type} {f g : α → Res β} {l : List α} (h : ∀ a ∈ l, f a = g a) : l.mapM f = l.mapM g := by
  induction l with
  | nil => rfl
  | cons a l ih => rw [List.mapM_cons, List.mapM_cons, h a (by simp), ih fun x hx => h x (by simp [hx])]

theorem mapM_bind {α β γ : Type} (f : α → Res β) (g : β → Res γ) (l : List α) (m : List β) (h : l.mapM f = .ok m) :
    l.mapM (fun a => (f a).bind g) = m.mapM g := by
  induction l generalizing m with
  | nil => cases h; rfl
  | cons a l ih =>
    rw [List.mapM_cons, Res.bind_eq_ok] at h
    obtain ⟨b, hb, h⟩ := h
    rw [Res.bind_eq_ok] at h
    obtain ⟨m', hm, h⟩ := h
    cases h
    rw [List.mapM_cons, List.mapM_cons, hb, ih m' hm]
    rfl

theorem physicalToWcs_ok [Field K] (w : Wcs K) (r : Region K) (hr : Shape r) : ∃ n, physicalToWcs w r = .ok n ∧ Shape n ∧ n.physical = false ∧
    (r.physical = false → n = r) := by
  unfold physicalToWcs
  cases hp : r.physical with
  | false => exact ⟨r, by simp, hr, hp, fun _ => rfl⟩
  | true =>
    simp only [Bool.not_true, Bool.false_eq_true, if_false]
    rcases hr with ⟨h1, h2⟩ | ⟨h1, h2⟩
    · match hq : r.params, h2 with
      | [x, y, z], _ =>
        simp only [if_pos h1]
        exact ⟨_, rfl, .inl ⟨h1, rfl⟩, rfl, by simp⟩
    · match hq : r.params, h2 with
      | [x, y, z, t, u], _ =>
        have hbc : r.type ≠ sCircle := by rw [h1]; decide
        simp only [if_neg hbc, if_pos h1]
        exact ⟨_, rfl, .inr ⟨h1, rfl⟩, rfl, by simp⟩

theorem mapM_physicalToWcs [Field K] (w : Wcs K) (regs : List (Region K)) (hr : ∀ r ∈ regs, Shape r) :
    ∃ ns, regs.mapM (physicalToWcs w) = .ok ns ∧ ∀ n ∈ ns, Shape n ∧ n.physical = false := by
  induction regs with
  | nil => exact ⟨[], rfl, by simp⟩
  | cons r regs ih =>
    obtain ⟨ns, h1, h2⟩ := ih fun x hx => hr x (by simp [hx])
    obtain ⟨n, h3, h4, h5, -⟩ := physicalToWcs_ok w r (hr r (by simp))
    refine ⟨n :: ns, by rw [List.mapM_cons, h3, Res.ok_bind, h1]; rfl, ?_⟩
    simpa [h4, h5] using h2

theorem readRegions_header [Ring K] (env : Env K) (word : Str) (ls : List Str) (regs : List (Region K))
    (h : ∀ s : St K, readLine env s word = .ok (if word = sPhysical then { s with physical := true } else s)) :
    readRegions env (header ++ [word] ++ ls) regs =
      (ls.foldlM (readLine env) ⟨sGreen, decide (word = sPhysical), regs⟩).bind fun s => .ok s.regs := by
  unfold readRegions
  rw [List.foldlM_append, List.foldlM_append, read_header, Res.ok_bind, List.foldlM_cons, h, Res.ok_bind, List.foldlM_nil, Res.pure_def, Res.ok_bind]
  by_cases hw : word = sPhysical
  · simp only [if_pos hw, hw, decide_true]
    rfl
  · simp only [if_neg hw, hw, decide_false]
    rfl

/-- **C115** (partial: the colour and the text of the regions are lost) circles and boxes written in sky coordinates are read back: same regions in
the same order, with the coordinates and sizes rounded to the digits that are written. Physical regions are converted. -/
theorem C115_sky_partial [Field K] {env : Env K} {fmt : K → Str} {rnd : K → K} (hf : Fmt env fmt rnd) (w : Wcs K) (regs : List (Region K))
    (hr : ∀ r ∈ regs, Shape r) : ∃ file ns, writeWcs fmt w true regs = .ok file ∧ regs.mapM (physicalToWcs w) = .ok ns ∧
      readRegions env file [] = .ok (ns.map (back rnd)) := by
  obtain ⟨ns, h1, h2⟩ := mapM_physicalToWcs w regs hr
  obtain ⟨ls, h3, h4⟩ := write_read_all hf true false (by simp) ns (fun n hn => (h2 n hn).1) ⟨sGreen, false, []⟩ rfl
  refine ⟨header ++ ["fk5".toList] ++ ls, ns, ?_, h1, ?_⟩
  · unfold writeWcs
    have := mapM_bind (physicalToWcs w) (writeRegion fmt (if true = true then ['"'] else [])) regs ns h1
    rw [← this] at h3
    exact (congrArg (fun z => Res.bind z _) h3).trans rfl
  · rw [readRegions_header env _ _ _ (fun s => readLine_word env s _ (by decide +kernel) (by decide +kernel) (by decide +kernel) (by decide +kernel) (by decide +kernel))]
    have e : decide ("fk5".toList = sPhysical) = false := by decide
    rw [e, h4]
    simp only [Bool.true_eq_false, if_false, if_true, List.nil_append]
    change Res.ok _ = _
    congr 1
    refine List.map_congr_left fun n hn => ?_
    simp [back, (h2 n hn).2]

/-- **C115** regions written in physical coordinates are not read back: their centre moves by one pixel in both directions -/
theorem C115_physical_refuted [Field K] {env : Env K} {fmt : K → Str} {rnd : K → K} (hf : Fmt env fmt rnd) (regs : List (Region K))
    (hr : ∀ r ∈ regs, Shape r) (hp : ∀ r ∈ regs, r.physical = true) : ∃ file, writePhysical fmt regs = .ok file ∧
      readPhysical env file [] = .ok (regs.map fun r => { back rnd r with params := shifted (r.params.map rnd) }) := by
  obtain ⟨ls, h3, h4⟩ := write_read_all hf false true (by simp) regs hr ⟨sGreen, true, []⟩ rfl
  refine ⟨header ++ [sPhysical] ++ ls, ?_, ?_⟩
  · unfold writePhysical
    have : regs.mapM (fun r => (do Res.check (r.physical = true); writeRegion fmt [] r : Res Str)) = .ok ls := by
      rw [← h3]
      refine mapM_congr fun r hr' => ?_
      rw [Res.check_pos (hp r hr')]; rfl
    rw [this]; rfl
  · unfold readPhysical
    rw [readRegions_header env _ _ _ (fun s => readLine_word env s _ (by decide +kernel) (by decide +kernel) (by decide +kernel) (by decide +kernel) (by decide +kernel))]
    simp only [decide_true]
    rw [h4]
    simp only [Bool.false_eq_true, if_false, List.nil_append]
    change (Res.check _ >>= fun _ => Res.ok _) = _
    rw [Res.check_pos]
    · change Res.ok _ = _
      congr 1
      refine List.map_congr_left fun r hr' => ?_
      simp [back, hp r hr']
    · intro r hr'
      rw [List.mem_map] at hr'
      obtain ⟨x, -, rfl⟩ := hr'
      rfl

/-- **C115** regions written in the coordinates of a WCS without right ascension and declination are not read at all: their sizes have no unit -/
theorem C115_linear_refuted [Field K] {env : Env K} {fmt : K → Str} {rnd : K → K} (hf : Fmt env fmt rnd) (w : Wcs K) (regs : List (Region K))
    (hr : ∀ r ∈ regs, Shape r) : ∃ file, writeWcs fmt w false regs = .ok file ∧ readRegions env file [] = .ok [] := by
  obtain ⟨ns, h1, h2⟩ := mapM_physicalToWcs w regs hr
  obtain ⟨ls, h3, h4⟩ := write_read_all hf false false (by simp) ns (fun n hn => (h2 n hn).1) ⟨sGreen, false, []⟩ rfl
  refine ⟨header ++ ["wcs;".toList] ++ ls, ?_, ?_⟩
  · unfold writeWcs
    have := mapM_bind (physicalToWcs w) (writeRegion fmt (if false = true then ['"'] else [])) regs ns h1
    rw [← this] at h3
    exact (congrArg (fun z => Res.bind z _) h3).trans rfl
  · rw [readRegions_header env _ _ _ (fun s => readLine_word env s _ (by decide +kernel) (by decide +kernel) (by decide +kernel) (by decide +kernel) (by decide +kernel))]
    have e : decide ("wcs;".toList = sPhysical) = false := by decide
    rw [e, h4]
    rfl

/-- **C115** the conversions to and from physical coordinates are inverse of each other, if those of the WCS are and its pixels have a size -/
theorem C115_convert [Field K] (w : Wcs K) (h1 : ∀ p, w.ad2xy (w.xy2ad p) = p) (h2 : ∀ p, w.xy2ad (w.ad2xy p) = p) (hs : w.aspix ≠ 0) (r : Region K)
    (hr : Shape r) : (r.physical = true → (physicalToWcs w r).bind (wcsToPhysical w) = .ok r) ∧
      (r.physical = false → (wcsToPhysical w r).bind (physicalToWcs w) = .ok r) := by
  obtain ⟨ty, co, te, ph, ps⟩ := r
  rcases hr with ⟨e1, e2⟩ | ⟨e1, e2⟩
  · match ps, e2 with
    | [x, y, z], _ =>
      simp only at e1
      subst e1
      refine ⟨fun h => ?_, fun h => ?_⟩ <;> simp only at h <;> subst h <;> simp [physicalToWcs, wcsToPhysical, Res.bind, h1, h2, hs]
  · match ps, e2 with
    | [x, y, z, t, u], _ =>
      simp only at e1
      subst e1
      have hbc : sBox ≠ sCircle := by decide
      refine ⟨fun h => ?_, fun h => ?_⟩ <;> simp only at h <;> subst h <;> simp [physicalToWcs, wcsToPhysical, Res.bind, h1, h2, hs, hbc]

/-! ### Concrete files -/

/-- numbers without fraction -/
def exEnv : Env ℚ := ⟨fun s => (parseNum s).map fun n : Nat => (n : ℚ), fun _ _ => none⟩
where parseNum (s : Str) : Option Nat := if s ≠ [] ∧ s.all Char.isDigit then some (Nat.ofDigitChars 10 s 0) else none

/-- **C115** after a line `physical` the regions of a section `fk5` are taken for physical ones -/
theorem C115_mode_refuted : readRegions exEnv ["physical".toList, "circle(11,21,3)".toList, "fk5".toList, "circle(150,2,3)".toList] [] =
    .ok [⟨sCircle, sGreen, [], true, [10, 20, 3]⟩, ⟨sCircle, sGreen, [], true, [149, 1, 3]⟩] := by decide +kernel

/-- **C115** a text with several words is cut after the first one -/
theorem C115_text_refuted : readRegions exEnv ["circle(150,2,3\") # color=red text={my source}".toList] [] =
    .ok [⟨sCircle, "red".toList, "{my".toList, false, [150, 2, 3]⟩] := by decide +kernel

example : readRegions exEnv ["# comment".toList, "global color=blue".toList, "fk5".toList, "ellipse(1,2,3,4,5)".toList, "circle(1,2)".toList,
    " box( 150 , 2,3\",4\",45) # text=b".toList] [] = .ok [⟨sBox, "blue".toList, "b".toList, false, [150, 2, 3, 4, 45]⟩] := by decide +kernel

/-- the written lines are those that the model reads -/
example (fmt : ℚ → Str) (h : fmt 150 = "150".toList ∧ fmt 2 = "2".toList ∧ fmt 3 = "3".toList) :
    writeRegion fmt ['"'] ⟨sCircle, "red".toList, [], false, [150, 2, 3]⟩ = .ok "circle(150, 2, 3\")".toList := by
  simp [writeRegion, h, sCircle]

theorem digit_numChars (c : Char) (h : c.isDigit = true) : c ∈ numChars := by
  rw [Char.isDigit_iff_toNat] at h
  have hc : c = Char.ofNat c.toNat := (Char.ofNat_toNat c).symm
  obtain ⟨h1, h2⟩ := h
  generalize c.toNat = n at *
  rw [hc]
  have h1 : 48 ≤ n := h1
  have h2 : n ≤ 57 := h2
  interval_cases n <;> decide

/-- the contract can be met: numbers written without their fraction -/
example : Fmt (⟨fun s => (Sex.parseNat s).map fun n : Nat => (n : ℚ), fun _ _ => none⟩ : Env ℚ) (fun x => Io.dec ⌊x⌋₊) (fun x => (⌊x⌋₊ : ℚ)) :=
  ⟨fun x => by simp [Sex.parseNat_digits (Sex.dec_ne_nil _) (Io.digits_dec _), Io.val_dec], fun _ => Sex.dec_ne_nil _,
    fun _ c hc => digit_numChars c (Io.digits_dec _ c hc)⟩

end Verif.Ds9
