import Verif.Basic
import Mathlib.Logic.Function.Basic
/-!
# Model of the SHA-1 code in `utility/bits/string-hash.hpp:10-151`

`unsigned int` is `BitVec 32`, `unsigned char` is `BitVec 8`.  The buffer `w[80]` is a function from indices; it
starts with arbitrary contents.  `int` counters are natural numbers (lengths below 2^28, so nothing overflows).
-/
namespace Verif.Sha

abbrev W := BitVec 32
abbrev Byte := BitVec 8

/-- the buffer `unsigned int w[80]` -/
abbrev Buf := Nat → W

/-- `rol` (string-hash.hpp:14-17) -/
def rol (v : W) (s : Nat) : W := (v <<< s) ||| (v >>> (32 - s))

/-- the variables `a, b, c, d, e` -/
structure St where
  a : W
  b : W
  c : W
  d : W
  e : W

/-- `sha1macro(func, val)` (string-hash.hpp:36-44); `f` is the value of `func` -/
def macroStep (s : St) (f : W) (val : W) (wr : W) : St :=
  let t := rol s.a 5 + f + s.e + val + wr
  { e := s.d, d := s.c, c := rol s.b 30, b := s.a, a := t }

/-- `(b & c) | (~b & d)` (string-hash.hpp:47) -/
def func1 (s : St) : W := (s.b &&& s.c) ||| (~~~s.b &&& s.d)
/-- `b ^ c ^ d` (string-hash.hpp:59) -/
def func2 (s : St) : W := s.b ^^^ s.c ^^^ s.d
/-- `(b & c) | (b & d) | (c & d)` (string-hash.hpp:65) -/
def func3 (s : St) : W := (s.b &&& s.c) ||| (s.b &&& s.d) ||| (s.c &&& s.d)

/-- `w[round] = rol(w[round-3] ^ w[round-8] ^ w[round-14] ^ w[round-16], 1)` (string-hash.hpp:52) -/
def extend (w : Buf) (r : Nat) : Buf :=
  Function.update w r (rol (w (r - 3) ^^^ w (r - 8) ^^^ w (r - 14) ^^^ w (r - 16)) 1)

/-- the body of one of the last four loops (string-hash.hpp:51-73) -/
def extStep (func : St → W) (val : W) (sw : St × Buf) (r : Nat) : St × Buf :=
  let w := extend sw.2 r
  (macroStep sw.1 (func sw.1) val (w r), w)

/-- `innerHash` (string-hash.hpp:27-82) -/
def innerHash (h : St) (w : Buf) : St × Buf :=
  let s1 := (List.range' 0 16).foldl (fun s r => macroStep s (func1 s) 0x5a827999#32 (w r)) h
  let p2 := (List.range' 16 4).foldl (extStep func1 0x5a827999#32) (s1, w)
  let p3 := (List.range' 20 20).foldl (extStep func2 0x6ed9eba1#32) p2
  let p4 := (List.range' 40 20).foldl (extStep func3 0x8f1bbcdc#32) p3
  let p5 := (List.range' 60 20).foldl (extStep func2 0xca62c1d6#32) p4
  let s := p5.1
  ({ a := h.a + s.a, b := h.b + s.b, c := h.c + s.c, d := h.d + s.d, e := h.e + s.e }, p5.2)

/-- `clearWBuffert` (string-hash.hpp:21-25) -/
def clearW (w : Buf) : Buf := (List.range 16).reverse.foldl (fun w p => Function.update w p 0) w

/-- byte `i` of the message -/
def byteAt (m : List Byte) (i : Nat) : W := (m.getD i 0).setWidth 32

/-- the inner loop over a full block (string-hash.hpp:103-110): sixteen groups of four bytes -/
def loadBlock (m : List Byte) (cur : Nat) (w : Buf) : Buf :=
  (List.range 16).foldl (fun w k => Function.update w k
    (byteAt m (cur + 4 * k + 3) ||| (byteAt m (cur + 4 * k + 2) <<< 8) ||| (byteAt m (cur + 4 * k + 1) <<< 16)
      ||| (byteAt m (cur + 4 * k) <<< 24))) w

/-- the loop over full blocks (string-hash.hpp:99-113): `currentBlock <= bytelength - 64` -/
def fullBlocks (m : List Byte) (cur : Nat) (h : St) (w : Buf) : Nat × St × Buf :=
  if cur + 64 ≤ m.length then
    let r := innerHash h (loadBlock m cur w)
    fullBlocks m (cur + 64) r.1 r.2
  else (cur, h, w)
termination_by m.length - cur

/-- `w[l >> 2] |= x << ((3 - (l & 3)) << 3)` (string-hash.hpp:121-126) -/
def orByte (w : Buf) (l : Nat) (x : W) : Buf :=
  Function.update w (l / 4) (w (l / 4) ||| (x <<< ((3 - l % 4) * 8)))

/-- `calc` up to the digest words (string-hash.hpp:85-134); `w` is the initial contents of the buffer -/
def calcWords (m : List Byte) (w : Buf) : St :=
  let init : St := ⟨0x67452301#32, 0xefcdab89#32, 0x98badcfe#32, 0x10325476#32, 0xc3d2e1f0#32⟩
  let (cur, h, w) := fullBlocks m 0 init w
  let last := m.length - cur
  let w := clearW w
  let w := (List.range last).foldl (fun w l => orByte w l (byteAt m (l + cur))) w
  let w := orByte w last 0x80#32
  let (h, w) := if last ≥ 56 then
      let r := innerHash h w
      (r.1, clearW r.2)
    else (h, w)
  let w := Function.update w 15 (BitVec.ofNat 32 (m.length <<< 3))
  (innerHash h w).1

/-- `result[k]` -/
def St.get (s : St) : Nat → W
  | 0 => s.a
  | 1 => s.b
  | 2 => s.c
  | 3 => s.d
  | _ => s.e

/-- `hexDigits` (string-hash.hpp:144) -/
def hexDigits : List Char := ['0', '1', '2', '3', '4', '5', '6', '7', '8', '9', 'a', 'b', 'c', 'd', 'e', 'f']

/-- the last loops of `calc` (string-hash.hpp:136-150): `hash[k] = (result[k >> 2] >> (((3 - k) & 3) << 3)) & 0xff`,
then two digits per byte.  `(3 - k) & 3` of a possibly negative `int` is the residue modulo 4. -/
def hexOf (s : St) : List Char :=
  (List.range 20).flatMap fun k =>
    let hash := (s.get (k / 4) >>> (((3 - (k : Int)) % 4).toNat * 8)) &&& 0xff#32
    [hexDigits.getD ((hash >>> 4) &&& 0xf#32).toNat ' ', hexDigits.getD (hash &&& 0xf#32).toNat ' ']

/-- `calc` (string-hash.hpp:85-151) -/
def sha1Calc (m : List Byte) (w : Buf) : List Char := hexOf (calcWords m w)

end Verif.Sha
