import Verif.Tools.Prompt
import Verif.Str.ConvProps
/-!
# C180: asking the user; C181: reading the environment
-/
namespace Verif.Prompt
open Verif Verif.Str Verif.StrConv Verif.Sex

/-! ### Spec -/

/-- the line is the text of a signed integer of this size, between spaces if any, and its value is `v` -/
def ReadsInt (bits : Nat) (line : Str) (v : Int) : Prop :=
  ∃ neg m, IntText line neg m ∧ v = (if neg then -(m : Int) else m) ∧ -2 ^ (bits - 1) ≤ v ∧ v ≤ 2 ^ (bits - 1) - 1

/-- what the user sees when `n` answers are refused: the message `n + 1` times, and a complaint between them -/
def shown (msg err : Str) : Nat → Str
  | 0 => msg
  | n + 1 => msg ++ ((if err = [] then [] else "error: ".toList ++ err ++ ['\n']) ++ shown msg err n)

/-! ### Helpers -/

theorem answer_eq {T : Type} (r : Reader T) (line : Str) (t : T) : answer r line t = fromString r noFallback line t := by
  unfold answer fromString
  rcases extract r line t with ⟨v, fail, rest⟩
  cases fail <;> simp [noFallback]

/-- at the end of the input nothing changes -/
theorem answer_eof {T : Type} (r : Reader T) (t : T) : answer r [] t = (false, t) := by
  simp [answer, extract]

/-- whether an answer is accepted, and as what, does not depend on the previous value of the variable -/
theorem answer_indep {T : Type} (r : Reader T) (line : Str) (t t' v : T) :
    answer r line t = (true, v) ↔ answer r line t' = (true, v) := by
  rw [answer_eq, answer_eq, fromString_true, fromString_true]
  unfold extract
  dsimp only
  split <;> simp

theorem prompt_ok {T : Type} (r : Reader T) (msg err : Str) (lines : List Str) (t v : T) (out : Str) (rest : List Str) :
    prompt r msg err lines t = .ok (v, out, rest) ↔
      ∃ pre line, lines = pre ++ line :: rest ∧ answer r line t = (true, v) ∧ (∀ l ∈ pre, ∀ w, answer r l t ≠ (true, w)) ∧
        out = shown msg err pre.length := by
  induction lines generalizing t out with
  | nil => simp [prompt]
  | cons l ls ih =>
    unfold prompt
    rcases ha : answer r l t with ⟨ok, w⟩
    cases ok with
    | true =>
      simp only [if_true]
      constructor
      · intro h
        injection h with h
        injection h with h1 h2
        injection h2 with h2 h3
        subst h1 h2 h3
        exact ⟨[], l, rfl, ha, by simp, rfl⟩
      · rintro ⟨pre, line, he, hl, hp, ho⟩
        cases pre with
        | nil =>
          simp only [List.nil_append, List.cons.injEq] at he
          obtain ⟨rfl, rfl⟩ := he
          rw [ha] at hl
          injection hl with _ hl
          subst hl ho
          rfl
        | cons p pre =>
          simp only [List.cons_append, List.cons.injEq] at he
          obtain ⟨rfl, rfl⟩ := he
          exact absurd ha (hp l (by simp) w)
    | false =>
      simp only [Bool.false_eq_true, if_false]
      rw [Res.bind_eq_ok]
      constructor
      · rintro ⟨⟨v', out', rest'⟩, h1, h2⟩
        injection h2 with h2
        injection h2 with e1 h2
        injection h2 with e2 e3
        subst e1 e2 e3
        obtain ⟨pre, line, he, hl, hp, ho⟩ := (ih w out').1 h1
        refine ⟨l :: pre, line, by rw [he]; rfl, (answer_indep r line w t v').1 hl, ?_, ?_⟩
        · intro x hx y hy
          rcases List.mem_cons.1 hx with rfl | hx
          · rw [ha] at hy; simp at hy
          · exact hp x hx y ((answer_indep r x t w y).1 hy)
        · subst ho
          exact List.append_assoc _ _ _
      · rintro ⟨pre, line, he, hl, hp, ho⟩
        cases pre with
        | nil =>
          simp only [List.nil_append, List.cons.injEq] at he
          obtain ⟨rfl, rfl⟩ := he
          rw [ha] at hl
          simp at hl
        | cons p pre =>
          simp only [List.cons_append, List.cons.injEq] at he
          obtain ⟨rfl, rfl⟩ := he
          refine ⟨(v, shown msg err pre.length, rest), (ih w _).2 ⟨pre, line, rfl, (answer_indep r line t w v).1 hl, ?_, rfl⟩, ?_⟩
          · intro x hx y hy
            exact hp x (List.mem_cons_of_mem _ hx) y ((answer_indep r x w t y).1 hy)
          · subst ho
            exact congrArg (fun o => Res.ok (v, o, rest)) (List.append_assoc _ _ _)

theorem prompt_total {T : Type} (r : Reader T) (msg err : Str) (lines : List Str) (t : T) :
    prompt r msg err lines t = .diverge ∨ ∃ x, prompt r msg err lines t = .ok x := by
  induction lines generalizing t with
  | nil => exact Or.inl rfl
  | cons l ls ih =>
    unfold prompt
    rcases ha : answer r l t with ⟨ok, w⟩
    cases ok with
    | true => exact Or.inr ⟨_, rfl⟩
    | false =>
      rcases ih w with h | ⟨x, h⟩
      · left; simp [h]
      · right; obtain ⟨a, b, c⟩ := x; exact ⟨_, by simp only [Bool.false_eq_true, if_false, h]; rfl⟩

/-! ### C180 -/

/-- Signed integers: `prompt` returns exactly at the first line which is a number in the range of the type, with this number; the lines after it are not
read, and the message was shown once for each line, with a complaint after each refused one. -/
theorem C180_first (bits : Nat) (msg err : Str) (lines : List Str) (t v : Int) (out : Str) (rest : List Str) :
    prompt (intReader ⟨true, bits⟩) msg err lines t = .ok (v, out, rest) ↔
      ∃ pre line, lines = pre ++ line :: rest ∧ ReadsInt bits line v ∧ (∀ l ∈ pre, ∀ w, ¬ ReadsInt bits l w) ∧ out = shown msg err pre.length := by
  rw [prompt_ok]
  have key : ∀ l w, answer (intReader ⟨true, bits⟩) l t = (true, w) ↔ ReadsInt bits l w := fun l w => by
    rw [answer_eq]; exact C143_signed bits l t w
  simp only [key, ne_eq]

/-- Any type: the value returned is what the type reads at the start of the first line of which it reads everything but spaces. -/
theorem C180_any {T : Type} (r : Reader T) (msg err : Str) (lines : List Str) (t v : T) (out : Str) (rest : List Str) :
    prompt r msg err lines t = .ok (v, out, rest) ↔
      ∃ pre line, lines = pre ++ line :: rest ∧ (∃ b, extract r line t = (v, false, b) ∧ Blank b) ∧
        (∀ l ∈ pre, ¬ ∃ w b, extract r l t = (w, false, b) ∧ Blank b) ∧ out = shown msg err pre.length := by
  rw [prompt_ok]
  have key : ∀ l w, answer r l t = (true, w) ↔ ∃ b, extract r l t = (w, false, b) ∧ Blank b := fun l w => by
    rw [answer_eq]; exact fromString_true
  simp only [key, ne_eq, not_exists]

/-- The program never gets out of `prompt` at the end of the input: if no line is a number, the call does not return. -/
theorem C180_end_refuted (bits : Nat) (msg err : Str) (lines : List Str) (t : Int) (h : ∀ l ∈ lines, ∀ w, ¬ ReadsInt bits l w) :
    prompt (intReader ⟨true, bits⟩) msg err lines t = .diverge := by
  rcases prompt_total (intReader ⟨true, bits⟩) msg err lines t with h1 | ⟨⟨v, out, rest⟩, h1⟩
  · exact h1
  · obtain ⟨pre, line, he, hl, _⟩ := (C180_first bits msg err lines t v out rest).1 h1
    exact absurd hl (h line (by rw [he]; simp) v)

/-- A name of several words cannot be typed: it is refused, and the next line is asked. -/
theorem C180_words_refuted : prompt wordReader "name? ".toList [] ["Edwin Hubble".toList, "Edwin".toList, "x".toList] [] =
    .ok ("Edwin".toList, "name? name? ".toList, ["x".toList]) := by decide +kernel

example : prompt (intReader ⟨true, 32⟩) "n? ".toList "bad".toList ["abc".toList, "12.5".toList, "99999999999".toList, " -7 ".toList, "8".toList] 0 =
    .ok (-7, "n? error: bad\nn? error: bad\nn? error: bad\nn? ".toList, ["8".toList]) := by decide +kernel
example : prompt (intReader ⟨true, 32⟩) "n? ".toList [] ["abc".toList] 0 = .diverge := by decide +kernel

/-! ### C181 -/

/-- Signed integers: the value of the variable of the environment if it exists and is a number in the range of the type; the default otherwise. -/
theorem C181_int (bits : Nat) (env : Str → Option Str) (name : Str) (dflt t v : Int) :
    (∀ s, env name = some s → ReadsInt bits s v → systemVar (intReader ⟨true, bits⟩) noFallback env name dflt t = v) ∧
    ((∀ s, env name = some s → ∀ w, ¬ ReadsInt bits s w) → systemVar (intReader ⟨true, bits⟩) noFallback env name dflt t = dflt) := by
  constructor
  · intro s hs hv
    have := (C143_signed bits s t v).2 hv
    simp [systemVar, hs, this]
  · intro h
    unfold systemVar
    cases hs : env name with
    | none => rfl
    | some s =>
      dsimp only
      rcases hf : fromString (intReader ⟨true, bits⟩) noFallback s t with ⟨ok, w⟩
      cases ok with
      | true => exact absurd ((C143_signed bits s t w).1 hf) (h s hs w)
      | false => rfl

/-- Texts: the variable as it is, spaces included, if it exists; the default otherwise. -/
theorem C181_text (env : Str → Option Str) (name dflt s : Str) :
    (env name = some s → systemText env name dflt = s) ∧ (env name = none → systemText env name dflt = dflt) := by
  constructor <;> intro h <;> simp [systemText, h]

/-- With the type given as in `system_var<std::string>(name, def)`, a text of several words or an empty one is ignored and the default is returned. -/
theorem C181_text_refuted : systemVar wordReader noFallback (fun _ => some "/home/Edwin Hubble".toList) "DIR".toList "/tmp".toList [] = "/tmp".toList ∧
    systemText (fun _ => some "/home/Edwin Hubble".toList) "DIR".toList "/tmp".toList = "/home/Edwin Hubble".toList ∧
    systemVar wordReader noFallback (fun _ => some []) "DIR".toList "/tmp".toList [] = "/tmp".toList := by decide +kernel

example : systemVar (intReader ⟨true, 32⟩) noFallback (fun n => if n = "NT".toList then some " 8 ".toList else none) "NT".toList 1 0 = 8 ∧
    systemVar (intReader ⟨true, 32⟩) noFallback (fun _ => some "8 threads".toList) "NT".toList 1 0 = 1 := by decide +kernel

end Verif.Prompt
