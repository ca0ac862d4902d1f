import Verif.Str.Model
import Mathlib.Algebra.BigOperators.Group.List.Basic
import Mathlib.Algebra.BigOperators.Ring.List
import Mathlib.Algebra.Field.Basic
import Mathlib.Algebra.Field.Rat
import Mathlib.Tactic.NormNum
/-!
# The program `imgtool` (C250)

`imgtool` reads an image, convolves, multiplies or rotates it, and writes the result. Here: which image is written to which file, for which arguments. The convolution is C129 and the rotation C227; the reading of files, options and numbers are parameters.
-/
namespace Verif.Imgtool
open Verif Verif.Str

/-! ### Model -/

variable {K : Type} [Field K]

/-- an image: the dimensions and the values -/
structure Im (K : Type) where
  ny : Nat
  nx : Nat
  data : List K

/-- what the program calls: `read` of a FITS file (stops the program if it cannot be read), `number` is `from_string`, `flag` an option of `read_args`, `conv` and `rot` the operations on images -/
structure Env (K : Type) where
  read : Str → Res (Im K)
  number : Str → Option K
  flag : Str → List Str → Bool
  conv : Im K → Im K → Res (Im K)
  rot : Im K → K → Res (Im K)

/-- what is seen of the program: the text printed, and the file written; the status is 0 in all cases (`imgtool.cpp:47`) -/
inductive Text
  | none | help | opHelp (op : Str) | usage | unknownOp | badNumber
deriving DecidableEq

structure Done (K : Type) where
  text : Text
  wrote : Option (Str × Im K)
  status : Nat

def convolveName : Str := ['c', 'o', 'n', 'v', 'o', 'l', 'v', 'e']
def multiplyName : Str := ['m', 'u', 'l', 't', 'i', 'p', 'l', 'y']
def rotateName : Str := ['r', 'o', 't', 'a', 't', 'e']
def helpName : Str := ['h', 'e', 'l', 'p']
def normalizeName : Str := ['n', 'o', 'r', 'm', 'a', 'l', 'i', 'z', 'e']

/-- `kernel /= total(kernel)` (`imgtool.cpp:78`) -/
def normalized (k : Im K) : Im K := { k with data := k.data.map (· / k.data.sum) }

/-- `map *= value` (`imgtool.cpp:120`) -/
def multiplied (m : Im K) (x : K) : Im K := { m with data := m.data.map (· * x) }

/-- `convolve` (`imgtool.cpp:61-87`); the arguments start with the name of the operation -/
def convolve (e : Env K) (args : List Str) : Res (Done K) :=
  match args with
  | _ :: a :: b :: o :: rest =>
    if e.flag helpName rest then .ok ⟨.opHelp convolveName, none, 0⟩
    else do
      let m ← e.read a
      let k ← e.read b
      let k := if e.flag normalizeName rest then normalized k else k
      let m ← e.conv m k
      .ok ⟨.none, some (o, m), 0⟩
  | _ => .ok ⟨.usage, none, 0⟩

/-- `multiply` (`imgtool.cpp:99-127`) -/
def multiply (e : Env K) (args : List Str) : Res (Done K) :=
  match args with
  | _ :: a :: b :: o :: rest =>
    if e.flag helpName rest then .ok ⟨.opHelp multiplyName, none, 0⟩
    else do
      let m ← e.read a
      match e.number b with
      | none => .ok ⟨.badNumber, none, 0⟩
      | some x => .ok ⟨.none, some (o, multiplied m x), 0⟩
  | _ => .ok ⟨.usage, none, 0⟩

/-- `rotate` (`imgtool.cpp:139-166`) -/
def rotate (e : Env K) (args : List Str) : Res (Done K) :=
  match args with
  | _ :: a :: b :: o :: rest =>
    if e.flag helpName rest then .ok ⟨.opHelp rotateName, none, 0⟩
    else do
      let m ← e.read a
      match e.number b with
      | none => .ok ⟨.badNumber, none, 0⟩
      | some x => do
        let m ← e.rot m x
        .ok ⟨.none, some (o, m), 0⟩
  | _ => .ok ⟨.usage, none, 0⟩

/-- `vif_main` (`imgtool.cpp:16-48`); the arguments without the name of the program -/
def main (e : Env K) (args : List Str) : Res (Done K) :=
  match args with
  | a :: b :: _ =>
    let op := a.map Char.toLower
    if op = helpName then
      let op := b.map Char.toLower
      if op = convolveName ∨ op = multiplyName ∨ op = rotateName then .ok ⟨.opHelp op, none, 0⟩
      else .ok ⟨.unknownOp, none, 0⟩
    else if op = convolveName then convolve e args
    else if op = multiplyName then multiply e args
    else if op = rotateName then rotate e args
    else .ok ⟨.unknownOp, none, 0⟩
  | _ => .ok ⟨.help, none, 0⟩

/-! ### Specification -/

/-- the name of an operation, in any case -/
def IsOp (a op : Str) : Prop := a.map Char.toLower = op

/-- the program wrote this image to this file, and nothing else -/
def Writes (x : Res (Done K)) (o : Str) (m : Im K) : Prop := x = .ok ⟨.none, some (o, m), 0⟩

/-- the same dimensions, and each value is that of the other image times `x` -/
def Times (w m : Im K) (x : K) : Prop := w.ny = m.ny ∧ w.nx = m.nx ∧ w.data.length = m.data.length ∧ ∀ i : Nat, ∀ a : K, m.data[i]? = some a → w.data[i]? = some (a * x)

/-! ### Helpers -/

theorem sum_div_aux (l : List K) (s : K) : (l.map (· / s)).sum = l.sum / s := by
  induction l with
  | nil => simp
  | cons a l ih => rw [List.map_cons, List.sum_cons, ih, List.sum_cons, add_div]

theorem main_convolve {e : Env K} {a b : Str} {rest : List Str} (h : IsOp a convolveName) : main e (a :: b :: rest) = convolve e (a :: b :: rest) := by
  unfold main
  unfold IsOp at h
  simp only [h]
  rw [if_neg (by decide), if_pos trivial]

theorem main_multiply {e : Env K} {a b : Str} {rest : List Str} (h : IsOp a multiplyName) : main e (a :: b :: rest) = multiply e (a :: b :: rest) := by
  unfold main
  unfold IsOp at h
  simp only [h]
  rw [if_neg (by decide), if_neg (by decide), if_pos trivial]

theorem main_rotate {e : Env K} {a b : Str} {rest : List Str} (h : IsOp a rotateName) : main e (a :: b :: rest) = rotate e (a :: b :: rest) := by
  unfold main
  unfold IsOp at h
  simp only [h]
  rw [if_neg (by decide), if_neg (by decide), if_neg (by decide), if_pos trivial]

/-! ### C250 -/

/-- C250: `multiply img value out` writes the image with all its values multiplied. -/
theorem C250_multiply (e : Env K) (a f v o : Str) (rest : List Str) (m : Im K) (x : K) (h : IsOp a multiplyName) (hh : e.flag helpName rest = false)
    (hr : e.read f = .ok m) (hx : e.number v = some x) : ∃ w, Writes (main e (a :: f :: v :: o :: rest)) o w ∧ Times w m x := by
  refine ⟨multiplied m x, ?_, rfl, rfl, by simp [multiplied], fun i c hi => by simp [multiplied, hi]⟩
  unfold Writes
  rw [main_multiply h]
  unfold multiply
  simp only [hh, Bool.false_eq_true, if_false, hr, Res.ok_bind, hx]

/-- C250: `convolve map kernel out` writes the convolution of the map with the kernel, or with a multiple of the kernel whose values sum to 1 if `normalize` is given and those of the kernel do not sum to zero. -/
theorem C250_convolve (e : Env K) (a f g o : Str) (rest : List Str) (m k r : Im K) (h : IsOp a convolveName) (hh : e.flag helpName rest = false)
    (hr : e.read f = .ok m) (hk : e.read g = .ok k) :
    (e.flag normalizeName rest = false → e.conv m k = .ok r → Writes (main e (a :: f :: g :: o :: rest)) o r) ∧
    (e.flag normalizeName rest = true → k.data.sum ≠ 0 → ∃ k', Times k' k (1 / k.data.sum) ∧ k'.data.sum = 1 ∧
      (e.conv m k' = .ok r → Writes (main e (a :: f :: g :: o :: rest)) o r)) := by
  unfold Writes
  rw [main_convolve h]
  unfold convolve
  simp only [hh, Bool.false_eq_true, if_false, hr, hk, Res.ok_bind]
  constructor
  · intro hn hc
    simp only [hn, Bool.false_eq_true, if_false, hc, Res.ok_bind]
  · intro hn hs
    refine ⟨normalized k, ⟨rfl, rfl, by simp [normalized], fun i c hi => by simp [normalized, hi, div_eq_mul_inv]⟩, ?_, fun hc => ?_⟩
    · show (k.data.map (· / k.data.sum)).sum = 1
      rw [sum_div_aux, div_self hs]
    · simp only [hn, if_true, hc, Res.ok_bind]

/-- C250: `rotate img angle out` writes the image rotated by the angle. -/
theorem C250_rotate (e : Env K) (a f v o : Str) (rest : List Str) (m r : Im K) (x : K) (h : IsOp a rotateName) (hh : e.flag helpName rest = false)
    (hr : e.read f = .ok m) (hx : e.number v = some x) (hc : e.rot m x = .ok r) : Writes (main e (a :: f :: v :: o :: rest)) o r := by
  unfold Writes
  rw [main_rotate h]
  unfold rotate
  simp only [hh, Bool.false_eq_true, if_false, hr, Res.ok_bind, hx, hc]

/-- C250: with less than three arguments after the operation, or an operation that is not known, nothing is written. -/
theorem C250_nothing (e : Env K) (args : List Str)
    (h : args.length < 4 ∨ ∃ a rest, args = a :: rest ∧ ¬ IsOp a convolveName ∧ ¬ IsOp a multiplyName ∧ ¬ IsOp a rotateName) :
    ∃ t, main e args = .ok ⟨t, none, 0⟩ ∧ t ≠ .none := by
  have short : args.length < 4 → (convolve e args = .ok ⟨.usage, none, 0⟩ ∧ multiply e args = .ok ⟨.usage, none, 0⟩ ∧ rotate e args = .ok ⟨.usage, none, 0⟩) := by
    intro hl
    match args, hl with
    | [], _ => exact ⟨rfl, rfl, rfl⟩
    | [_], _ => exact ⟨rfl, rfl, rfl⟩
    | [_, _], _ => exact ⟨rfl, rfl, rfl⟩
    | [_, _, _], _ => exact ⟨rfl, rfl, rfl⟩
    | _ :: _ :: _ :: _ :: l, hl => simp only [List.length_cons] at hl; omega
  unfold main
  split
  · rename_i a b rest
    dsimp only
    split
    · split
      · exact ⟨_, rfl, by simp⟩
      · exact ⟨_, rfl, by simp⟩
    · rcases h with h | ⟨a', rest', he, h1, h2, h3⟩
      · obtain ⟨s1, s2, s3⟩ := short h
        split
        · exact ⟨_, s1, by simp⟩
        · split
          · exact ⟨_, s2, by simp⟩
          · split
            · exact ⟨_, s3, by simp⟩
            · exact ⟨_, rfl, by simp⟩
      · cases he
        unfold IsOp at h1 h2 h3
        rw [if_neg h1, if_neg h2, if_neg h3]
        exact ⟨_, rfl, by simp⟩
  · exact ⟨_, rfl, by simp⟩

/-- C250: a value that is not a number: nothing is written. -/
theorem C250_number (e : Env K) (a f v o : Str) (rest : List Str) (m : Im K) (h : IsOp a multiplyName ∨ IsOp a rotateName) (hh : e.flag helpName rest = false)
    (hr : e.read f = .ok m) (hx : e.number v = none) : main e (a :: f :: v :: o :: rest) = .ok ⟨.badNumber, none, 0⟩ := by
  rcases h with h | h
  · rw [main_multiply h]
    unfold multiply
    simp only [hh, Bool.false_eq_true, if_false, hr, Res.ok_bind, hx]
  · rw [main_rotate h]
    unfold rotate
    simp only [hh, Bool.false_eq_true, if_false, hr, Res.ok_bind, hx]

/-- C250 fails: the status is 0 whatever the error, here for an operation that is not known. -/
theorem C250_status_refuted (e : Env K) : main e [['x'], ['y']] = .ok ⟨.unknownOp, none, 0⟩ := rfl

/-- C250 fails: the help says to run the operation with `help`, which gives an error; `help` has to come first. -/
theorem C250_help_refuted (e : Env K) : main e [convolveName, helpName] = .ok ⟨.usage, none, 0⟩ ∧ main e [helpName, convolveName] = .ok ⟨.opHelp convolveName, none, 0⟩ := by
  constructor
  · rw [main_convolve (by unfold IsOp; decide)]
    rfl
  · unfold main
    dsimp only
    rw [if_pos (by decide), if_pos (by decide)]
    rfl

/-- an image and a kernel, in upper case -/
example : IsOp ['M', 'u', 'l', 't', 'i', 'p', 'l', 'y'] multiplyName ∧ IsOp convolveName convolveName ∧
    (normalized (⟨1, 2, [1, 3]⟩ : Im ℚ)).data = [1 / 4, 3 / 4] := by
  refine ⟨by unfold IsOp; decide, by unfold IsOp; decide, by norm_num [normalized]⟩

example : ¬ IsOp ['x'] convolveName ∧ ¬ IsOp ['x'] multiplyName ∧ ¬ IsOp ['x'] rotateName := by
  unfold IsOp; decide

end Verif.Imgtool
