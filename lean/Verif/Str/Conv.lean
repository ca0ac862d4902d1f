import Verif.Astro.Sex
/-!
# Conversions to and from text (`core/string_conversion.hpp:134-222`)

`operator>>` and `operator<<` of the classic locale are modelled by their contract: `operator>>` skips spaces, fails at the end of the text
(the variable is then unchanged), and otherwise calls the reader of the type (section *readers*). `eof` is set when a reader stops at the end
of the text; the reader of one character does not set it, which makes no difference here since the only further read gives an empty text.
-/
namespace Verif.StrConv
open Verif Verif.Str Verif.Io Verif.Sex

/-! ### Readers -/

/-- a reader is called on a text that starts with something else than a space: the value stored, whether it failed, and the rest of the text -/
abbrev Reader (T : Type) := Str → T × Bool × Str

/-- an integer type other than the types of characters -/
structure IntTy where
  signed : Bool
  bits : Nat

/-- smallest value -/
def IntTy.lo (ty : IntTy) : Int := if ty.signed then -2 ^ (ty.bits - 1) else 0

/-- largest value -/
def IntTy.hi (ty : IntTy) : Int := if ty.signed then 2 ^ (ty.bits - 1) - 1 else 2 ^ ty.bits - 1

/-- the sign -/
def sign : Str → Bool × Str
  | '-' :: u => (true, u)
  | '+' :: u => (false, u)
  | u => (false, u)

/-- integers (`num_get` with the `dec` flag, [facet.num.get.virtuals]): digits after a sign, converted by `strtoll` or `strtoull`. A number out of range is
replaced by the closest one and the reader fails; `strtoull` negates modulo 2^bits. -/
def intReader (ty : IntTy) : Reader Int := fun s =>
  let u := (sign s).2
  let d := u.takeWhile Char.isDigit
  let rest := u.dropWhile Char.isDigit
  let m : Int := (Nat.ofDigitChars 10 d 0 : Nat)
  if d = [] then (0, true, rest)
  else if ty.signed then
    let v := if (sign s).1 then -m else m
    if v < ty.lo then (ty.lo, true, rest) else if ty.hi < v then (ty.hi, true, rest) else (v, false, rest)
  else if ty.hi < m then (ty.hi, true, rest)
  else (if (sign s).1 then (-m) % 2 ^ ty.bits else m, false, rest)

/-- `bool`: a `long` which must be 0 or 1 -/
def boolReader : Reader Bool := fun s =>
  let r := intReader ⟨true, 64⟩ s
  if r.2.1 then (decide (r.1 ≠ 0), true, r.2.2)
  else if r.1 = 0 then (false, false, r.2.2) else if r.1 = 1 then (true, false, r.2.2) else (true, true, r.2.2)

/-- `std::string`: a word -/
def wordReader : Reader Str := fun s => (s.takeWhile fun c => !isSp c, false, s.dropWhile fun c => !isSp c)

/-- `char`, `signed char` (`int8_t`) and `unsigned char` (`uint8_t`): one character -/
def charReader : Reader Char := fun s => (s.headD ' ', false, s.tail)

/-- `ss >> t` -/
def extract {T : Type} (r : Reader T) (s : Str) (t : T) : T × Bool × Str :=
  let u := s.dropWhile isSp
  if u = [] then (t, true, []) else r u

/-! ### vif -/

/-- `from_string(s, t)` (`string_conversion.hpp:193-207`): the value returned and the new value of `t` -/
def fromString {T : Type} (r : Reader T) (fallback : Str → Option T) (s : Str) (t : T) : Bool × T :=
  let (v, fail, rest) := extract r s t
  if !fail then
    if rest = [] then (true, v)
    else
      let rem := (extract wordReader rest ([] : Str)).1
      (decide (firstNotOf rem [' ', '\t'] 0 = none), v)
  else
    match fallback s with
    | some w => (true, w)
    | none => (false, v)

/-- the fallback of types that are not floating point (`string_conversion.hpp:187-190`) -/
def noFallback {T : Type} : Str → Option T := fun _ => none

/-- a floating point number: a finite one, NaN or an infinity -/
inductive Fl (K : Type)
  | fin (x : K)
  | nan
  | inf (neg : Bool)
deriving DecidableEq

/-- the fallback of floating point types (`string_conversion.hpp:168-185`) -/
def flFallback {K : Type} (s : Str) : Option (Fl K) :=
  let su := s.map Char.toUpper
  if su = "NAN".toList ∨ su = "+NAN".toList ∨ su = "-NAN".toList then some .nan
  else if su = "+INF".toList ∨ su = "INF+".toList ∨ su = "INF".toList then some (.inf false)
  else if su = "-INF".toList ∨ su = "INF-".toList then some (.inf true)
  else none

/-- `from_string` of vectors (`string_conversion.hpp:209-222`) in a vector, which is resized; the new elements are `z` -/
def fromStringVec {T : Type} (r : Reader T) (fallback : Str → Option T) (s : List Str) (t : List T) (z : T) : Res (List Bool × List T) := do
  let t := t.take s.length ++ List.replicate (s.length - t.length) z
  let l ← (List.range s.length).mapM fun i => do
    let a ← Res.rd s i
    let b ← Res.rd t i
    .ok (fromString r fallback a b)
  .ok (l.map Prod.fst, l.map Prod.snd)

/-- `to_string` of integers (string_conversion.hpp:134-139) -/
def intToString (v : Int) : Str := decInt v

/-- `to_string` of `bool` (string_conversion.hpp:134-139) -/
def boolToString (b : Bool) : Str := if b then ['1'] else ['0']

/-- `to_string` (string_conversion.hpp:134-139) of NaN (with its sign) and of the infinities; finite numbers are printed by `fmt` -/
def flToString {K : Type} (fmt : K → Str) (nanNeg : Bool) : Fl K → Str
  | .fin x => fmt x
  | .nan => if nanNeg then "-nan".toList else "nan".toList
  | .inf neg => if neg then "-inf".toList else "inf".toList

/-! ### Floating point numbers that are whole numbers -/

/-- the text of a whole number printed as a floating point number with six digits (`%g`): beyond six digits, it is rounded to six digits (to even for
a tie), with an exponent, and without the zeros at the end of the fraction -/
def fmtG (n : Nat) : Str :=
  if n < 10 ^ 6 then dec n
  else
    let e := (dec n).length - 1
    let q := 10 ^ (e - 5)
    let m := if 2 * (n % q) < q ∨ (2 * (n % q) = q ∧ n / q % 2 = 0) then n / q else n / q + 1
    let (m, e) := if m = 10 ^ 6 then (10 ^ 5, e + 1) else (m, e)
    let f := ((dec (m % 10 ^ 5 + 10 ^ 5)).tail.reverse.dropWhile (· = '0')).reverse
    dec (m / 10 ^ 5) ++ (if f = [] then [] else '.' :: f) ++ ['e', '+'] ++ (if e < 10 then ['0'] else []) ++ dec e

/-- floating point numbers without sign of exponent or with a positive one, which is enough to read what `fmtG` writes -/
def flReader : Reader (Fl ℚ) := fun s =>
  let (neg, u) := sign s
  let d := u.takeWhile Char.isDigit
  let u := u.dropWhile Char.isDigit
  let (f, u) := match u with
    | '.' :: w => (w.takeWhile Char.isDigit, w.dropWhile Char.isDigit)
    | w => ([], w)
  if d = [] ∧ f = [] then (.fin 0, true, u)
  else
    let (e, bad, u) := match u with
      | 'e' :: w => let x := (sign w).2; (Nat.ofDigitChars 10 (x.takeWhile Char.isDigit) 0, decide (x.takeWhile Char.isDigit = []), x.dropWhile Char.isDigit)
      | w => (0, false, w)
    let v : ℚ := (Nat.ofDigitChars 10 (d ++ f) 0 : ℚ) * 10 ^ e / 10 ^ f.length
    if bad then (.fin 0, true, u) else (.fin (if neg then -v else v), false, u)

end Verif.StrConv
