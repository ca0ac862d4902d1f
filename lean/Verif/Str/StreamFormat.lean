import Verif.Basic
/-!
# C254: `format::scientific`, `format::fixed` and `format::precision` (`core/string_conversion.hpp:45-131`)

A formatted object is written by copying the settings of the stream in a second stream `std::ios old(nullptr)`, changing those of the stream, writing the object, and copying the settings back (`string_conversion.hpp:104-114`). The object may be formatted itself.
-/
namespace Verif.StreamFormat
open Verif

abbrev S := List Char

/-! ### Model -/

inductive Notation | general | scientific | fixed
deriving DecidableEq

/-- the settings that `std::basic_ios::copyfmt` copies: the notation of numbers, the precision, the width of the next field, the fill character, whether fields are adjusted to the left, and whether `badbit` is in the mask of exceptions -/
structure Fmt where
  nota : Notation
  precision : Int
  width : Nat
  fill : Char
  left : Bool
  throwBad : Bool
deriving DecidableEq

/-- a stream in a good state: its settings, and what was written to it -/
structure Stream where
  fmt : Fmt
  text : S
deriving DecidableEq

/-- what the standard library makes of a value, before padding -/
abbrev Conv (V : Type) := Notation → Int → V → S

/-- a field padded to the width of the stream -/
def pad (f : Fmt) (t : S) : S :=
  let p := List.replicate (f.width - t.length) f.fill
  if f.left then t ++ p else p ++ t

/-- a formatted output of the standard library, which sets the width to zero -/
def insert (t : S) (s : Stream) : Stream := ⟨{ s.fmt with width := 0 }, s.text ++ pad s.fmt t⟩

/-- an object: a value or a vector -/
inductive Obj (V : Type)
  | val (v : V)
  | vec (l : List V)

variable {V : Type}

/-- `o << v` for a value -/
def putVal (conv : Conv V) (v : V) (s : Stream) : Stream := insert (conv s.fmt.nota s.fmt.precision v) s

/-- the elements of a vector from the one of index `i` (`core/bits/operators.hpp:311-314`) -/
def putElems (conv : Conv V) : Nat → List V → Stream → Stream
  | _, [], s => s
  | i, v :: l, s => putElems conv (i + 1) l (putVal conv v (if i ≠ 0 then insert [',', ' '] s else s))

/-- `o << obj` (`core/bits/operators.hpp:308-318` for a vector) -/
def putObj (conv : Conv V) : Obj V → Stream → Stream
  | .val v, s => putVal conv v s
  | .vec l, s => insert ['}'] (putElems conv 0 l (insert ['{'] s))

/-- the formats; `precision` has an argument of type `uint_t` -/
inductive Format
  | scientific
  | fixed
  | precision (p : BitVec 64)
deriving DecidableEq

/-- `fmt.apply(o)` (`string_conversion.hpp:70-93`); the argument of `std::setprecision` is an `int` -/
def apply : Format → Fmt → Fmt
  | .scientific, f => { f with nota := .scientific }
  | .fixed, f => { f with nota := .fixed }
  | .precision p, f => { f with precision := (p.setWidth 32).toInt }

/-- `old.copyfmt(o)` (`string_conversion.hpp:105-106`): `old` has no buffer, hence `badbit`, and throws when it gets a mask of exceptions with `badbit` -/
def save (f : Fmt) : Res Fmt := if f.throwBad then .abort else .ok f

/-- `o << f1(f2(... obj))` (`string_conversion.hpp:104-114`), with the outermost format first -/
def put (conv : Conv V) : List Format → Obj V → Stream → Res Stream
  | [], x, s => .ok (putObj conv x s)
  | f :: fs, x, s => do
    let old ← save s.fmt
    let r ← put conv fs x ⟨apply f s.fmt, s.text⟩
    .ok ⟨old, r.text⟩

/-! ### Specification -/

/-- the notation that a format asks for -/
def Format.nota? : Format → Option Notation
  | .scientific => some .scientific
  | .fixed => some .fixed
  | .precision _ => none

/-- the number of digits that a format asks for -/
def Format.digits? : Format → Option Nat
  | .precision p => some p.toNat
  | _ => none

/-- the settings with the innermost notation and the innermost precision among the formats -/
def asked (fs : List Format) (f : Fmt) : Fmt :=
  { f with nota := (fs.filterMap Format.nota?).getLast?.getD f.nota,
           precision := ((fs.filterMap Format.digits?).getLast?.map Int.ofNat).getD f.precision }

/-- all precisions fit in an `int` -/
def Small (fs : List Format) : Prop := ∀ p, Format.precision p ∈ fs → p.toNat < 2 ^ 31

/-! ### C254 -/

theorem apply_throw (f : Format) (g : Fmt) : (apply f g).throwBad = g.throwBad := by cases f <;> rfl

theorem small_int (p : BitVec 64) (h : p.toNat < 2 ^ 31) : (p.setWidth 32).toInt = (p.toNat : Int) := by
  rw [BitVec.toInt_eq_toNat_cond, BitVec.toNat_setWidth]
  have : p.toNat % 2 ^ 32 = p.toNat := Nat.mod_eq_of_lt (by omega)
  rw [this, if_pos (by omega)]

theorem getLast?_cons_getD {α β} (g : α → β) (a : α) (l : List α) (d : β) : (((a :: l).getLast?).map g).getD d = ((l.getLast?).map g).getD (g a) := by
  cases l with
  | nil => rfl
  | cons b l =>
    rw [List.getLast?_cons_cons]
    obtain ⟨x, hx⟩ : ∃ x, (b :: l).getLast? = some x := ⟨_, List.getLast?_eq_some_getLast (by simp)⟩
    rw [hx]; rfl

theorem asked_cons (f : Format) (fs : List Format) (g : Fmt) (h : Small (f :: fs)) : asked (f :: fs) g = asked fs (apply f g) := by
  have hm := fun a l d => getLast?_cons_getD (fun x : Notation => x) a l d
  simp only [Option.map_id'] at hm
  cases f with
  | scientific => simp only [asked, apply, List.filterMap_cons, Format.nota?, Format.digits?, hm]
  | fixed => simp only [asked, apply, List.filterMap_cons, Format.nota?, Format.digits?, hm]
  | precision p =>
    simp only [asked, apply, List.filterMap_cons, Format.nota?, Format.digits?, getLast?_cons_getD, small_int p (h p (by simp))]
    rfl

/-- C254 (partial): on a stream that does not throw on `badbit`, and for precisions that fit in an `int`, the text written is that of the object on a stream with the notation and the precision that are asked for, the innermost ones if there are several. -/
theorem C254_text_partial (conv : Conv V) (fs : List Format) (x : Obj V) (s : Stream) (ht : s.fmt.throwBad = false) (hs : Small fs) :
    ∃ r, put conv fs x s = .ok r ∧ r.text = (putObj conv x ⟨asked fs s.fmt, s.text⟩).text := by
  induction fs generalizing s with
  | nil => exact ⟨_, rfl, rfl⟩
  | cons f fs ih =>
    obtain ⟨r, hr, he⟩ := ih ⟨apply f s.fmt, s.text⟩ (by rw [apply_throw]; exact ht) (fun p hp => hs p (List.mem_cons_of_mem _ hp))
    refine ⟨⟨s.fmt, r.text⟩, ?_, ?_⟩
    · simp [put, save, ht, hr]
    · rw [asked_cons f fs s.fmt hs]; exact he

theorem putElems_fmt (conv : Conv V) (l : List V) (i : Nat) (s : Stream) (h : s.fmt.width = 0) : (putElems conv i l s).fmt = s.fmt := by
  induction l generalizing i s with
  | nil => rfl
  | cons v l ih =>
    have e : ∀ s : Stream, s.fmt.width = 0 → ({ s.fmt with width := 0 } : Fmt) = s.fmt := by
      rintro ⟨⟨a, b, c, d, e, f⟩, t⟩ h; simp_all
    unfold putElems
    rw [ih]
    · split <;> simp [putVal, insert, e s h]
    · rfl

/-- writing an object sets the width to zero and keeps the other settings -/
theorem putObj_fmt (conv : Conv V) (x : Obj V) (s : Stream) : (putObj conv x s).fmt = { s.fmt with width := 0 } := by
  cases x with
  | val v => rfl
  | vec l => simp [putObj, insert, putElems_fmt]

/-- C254 (partial): if moreover no width is set, the settings of the stream are after the formatted object what they were before, and what they are after the object without format, so that the text of whatever follows does not depend on the formats. -/
theorem C254_state_partial (conv : Conv V) (fs : List Format) (x : Obj V) (s : Stream) (ht : s.fmt.throwBad = false) (hw : s.fmt.width = 0) :
    ∃ r, put conv fs x s = .ok r ∧ r.fmt = s.fmt ∧ r.fmt = (putObj conv x s).fmt := by
  have e : ({ s.fmt with width := 0 } : Fmt) = s.fmt := by
    obtain ⟨⟨a, b, c, d, e, f⟩, t⟩ := s; simp_all
  cases fs with
  | nil => exact ⟨_, rfl, by rw [putObj_fmt, e], rfl⟩
  | cons f fs =>
    have key : ∀ (fs : List Format) (s : Stream), s.fmt.throwBad = false → ∃ r, put conv fs x s = .ok r := by
      intro fs
      induction fs with
      | nil => intro s _; exact ⟨_, rfl⟩
      | cons f fs ih =>
        intro s ht
        obtain ⟨r, hr⟩ := ih ⟨apply f s.fmt, s.text⟩ (by rw [apply_throw]; exact ht)
        exact ⟨⟨s.fmt, r.text⟩, by simp [put, save, ht, hr]⟩
    obtain ⟨r, hr⟩ := key fs ⟨apply f s.fmt, s.text⟩ (by rw [apply_throw]; exact ht)
    exact ⟨⟨s.fmt, r.text⟩, by simp [put, save, ht, hr], rfl, by rw [putObj_fmt, e]⟩

/-- C254 fails with a width: it is used by the object, and set again after it, where the object without format would leave a width of zero. -/
theorem C254_width_refuted (conv : Conv V) (f : Format) (fs : List Format) (x : Obj V) (s r : Stream) (hw : 0 < s.fmt.width)
    (h : put conv (f :: fs) x s = .ok r) : r.fmt.width = s.fmt.width ∧ (putObj conv x s).fmt.width = 0 ∧ r.fmt.width ≠ (putObj conv x s).fmt.width := by
  have hr : r.fmt = s.fmt := by
    simp only [put] at h
    rw [Res.bind_eq_ok] at h
    obtain ⟨o, ho, h⟩ := h
    rw [Res.bind_eq_ok] at h
    obtain ⟨q, _, h⟩ := h
    unfold save at ho
    split at ho <;> simp at ho h
    rw [← h, ← ho]
  rw [hr, putObj_fmt]
  exact ⟨rfl, rfl, by simp; omega⟩

/-- C254 fails on a stream with `badbit` in its mask of exceptions: any formatted object throws, while the object without format is written. -/
theorem C254_throw_refuted (conv : Conv V) (f : Format) (fs : List Format) (x : Obj V) (s : Stream) (ht : s.fmt.throwBad = true) :
    put conv (f :: fs) x s = .abort ∧ put conv [] x s = .ok (putObj conv x s) := by
  refine ⟨?_, rfl⟩
  simp only [put, save, ht, if_true]
  rfl

/-- C254 fails for large precisions: those that differ by a multiple of `2^32` write the same text. -/
theorem C254_precision_refuted (conv : Conv V) (p q : BitVec 64) (x : Obj V) (s : Stream) (h : p.toNat % 2 ^ 32 = q.toNat % 2 ^ 32) :
    put conv [.precision p] x s = put conv [.precision q] x s := by
  have : p.setWidth 32 = q.setWidth 32 := by
    apply BitVec.eq_of_toNat_eq
    rw [BitVec.toNat_setWidth, BitVec.toNat_setWidth, h]
  simp only [put, apply, this]

/-- a stream as constructed -/
def fresh : Stream := ⟨⟨.general, 6, 0, ' ', false, false⟩, []⟩

/-- values that show the settings they are written with -/
def show' : Conv Char := fun n p c => [c, match n with | .general => 'g' | .scientific => 'e' | .fixed => 'f'] ++ (toString p).toList

example : put show' [.precision 17, .scientific] (.vec ['x', 'y']) fresh = .ok ⟨fresh.fmt, "{xe17, ye17}".toList⟩ := by decide +kernel
example : put show' [.fixed, .precision 3, .scientific, .precision 2] (.val 'x') fresh = .ok ⟨fresh.fmt, "xe2".toList⟩ := by decide +kernel
example : Small [.precision 17, .scientific] := by intro p hp; simp at hp; subst hp; decide
/-- `o << std::setw(5) << format::fixed(x) << y`: both values are padded -/
example : (do let r ← put show' [.fixed] (.val 'x') ⟨{ fresh.fmt with width := 5 }, []⟩; put show' [] (.val 'y') r) =
    .ok ⟨fresh.fmt, "  xf6  yg6".toList⟩ := by decide +kernel
/-- without the format, only the first is -/
example : (do let r ← put show' [] (.val 'x') ⟨{ fresh.fmt with width := 5 }, []⟩; put show' [] (.val 'y') r) =
    .ok ⟨fresh.fmt, "  xg6yg6".toList⟩ := by decide +kernel
/-- `precision(x, 2^32 + 3)` -/
example : put show' [.precision (2 ^ 32 + 3)] (.val 'x') fresh = .ok ⟨fresh.fmt, "xg3".toList⟩ := by decide +kernel

end Verif.StreamFormat
