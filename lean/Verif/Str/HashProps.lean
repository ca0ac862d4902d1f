import Verif.Str.ShaProps
/-!
# Property C41: what `hash` feeds to the digest (string-hash.hpp:153-170)

An argument enters as two byte strings: the name `pretty_type` gives to its type and its text by `to_string`.
Both are left arbitrary here; the theorems say for which names and texts the argument list can be told from
the bytes hashed.
-/
namespace Verif.Sha

/-- the type name and the text of one argument -/
structure Arg where
  type : List Byte
  text : List Byte
  deriving DecidableEq

/-- the recursion `hash_(s + pretty_type(t) + to_string(t), args...)` (string-hash.hpp:159-162); the string
reached when no argument is left -/
def hashInput (s : List Byte) : List Arg → List Byte
  | [] => s
  | a :: as => hashInput (s ++ a.type ++ a.text) as

/-- `hash(args...)` (string-hash.hpp:166-169) -/
def hash (args : List Arg) (w : Buf) : List Char := sha1Calc (hashInput [] args) w

theorem hashInput_eq (s : List Byte) (args : List Arg) :
    hashInput s args = s ++ args.flatMap fun a => a.type ++ a.text := by
  induction args generalizing s with
  | nil => simp [hashInput]
  | cons a as ih => rw [hashInput, ih]; simp

/-- C41 (negative part): whatever the name `N` of a type, the calls `hash("", N)` and `hash(N, "")` on two
arguments of that type hash the same bytes, so they return the same digest although the arguments differ. -/
theorem C41_refuted (N : List Byte) (hN : N ≠ []) (w : Buf) :
    hashInput [] [⟨N, []⟩, ⟨N, N⟩] = hashInput [] [⟨N, N⟩, ⟨N, []⟩] ∧
    hash [⟨N, []⟩, ⟨N, N⟩] w = hash [⟨N, N⟩, ⟨N, []⟩] w ∧
    ([⟨N, []⟩, ⟨N, N⟩] : List Arg) ≠ [⟨N, N⟩, ⟨N, []⟩] := by
  have h : hashInput [] [⟨N, []⟩, ⟨N, N⟩] = hashInput [] [⟨N, N⟩, ⟨N, []⟩] := by simp [hashInput]
  refine ⟨h, ?_, ?_⟩
  · unfold hash; rw [h]
  · intro he
    simp only [List.cons.injEq, Arg.mk.injEq] at he
    exact hN he.1.2.symm

theorem split_block {P : Byte → Bool} {a b x y : List Byte} (ha : ∀ c ∈ a, P c) (hb : ∀ c ∈ b, P c)
    (hx : ∀ c, x.head? = some c → P c = false) (hy : ∀ c, y.head? = some c → P c = false) (h : a ++ x = b ++ y) :
    a = b ∧ x = y := by
  induction a generalizing b with
  | nil =>
    cases b with
    | nil => exact ⟨rfl, h⟩
    | cons c b =>
      have h : x = c :: (b ++ y) := h
      have := hx c (by rw [h]; rfl)
      rw [hb c List.mem_cons_self] at this; cases this
  | cons c a ih =>
    cases b with
    | nil =>
      have h : c :: (a ++ x) = y := h
      have := hy c (by rw [← h]; rfl)
      rw [ha c List.mem_cons_self] at this; cases this
    | cons d b =>
      simp only [List.cons_append, List.cons.injEq] at h
      have := ih (fun c hc => ha c (List.mem_cons_of_mem _ hc)) (fun c hc => hb c (List.mem_cons_of_mem _ hc)) h.2
      exact ⟨by rw [h.1, this.1], this.2⟩

/-- an argument whose type name is made of the characters `P` and whose text is made of the others, both non
empty: for instance an integer, with a type name that contains neither digits nor a sign -/
def Tagged (P : Byte → Bool) (a : Arg) : Prop :=
  a.type ≠ [] ∧ a.text ≠ [] ∧ (∀ c ∈ a.type, P c = true) ∧ (∀ c ∈ a.text, P c = false)

theorem head_type {P : Byte → Bool} (as : List Arg) (h : ∀ a ∈ as, Tagged P a) (c : Byte)
    (hc : (as.flatMap fun a => a.type ++ a.text).head? = some c) : P c = true := by
  cases as with
  | nil => simp at hc
  | cons a as =>
    obtain ⟨h1, _, h3, _⟩ := h a List.mem_cons_self
    cases ht : a.type with
    | nil => exact absurd ht h1
    | cons d t =>
      simp [List.flatMap_cons, ht] at hc
      exact h3 c (by rw [ht, hc]; exact List.mem_cons_self)

/-- C41 (positive part, partial): when the texts and the type names use disjoint characters and are non empty,
different argument lists are hashed from different bytes.
Full statement: the same for every two different argument lists.  It is false (`C41_refuted`). -/
theorem C41_inputs_partial (P : Byte → Bool) (as bs : List Arg) (ha : ∀ a ∈ as, Tagged P a) (hb : ∀ b ∈ bs, Tagged P b)
    (h : hashInput [] as = hashInput [] bs) : as = bs := by
  rw [hashInput_eq, hashInput_eq, List.nil_append, List.nil_append] at h
  induction as generalizing bs with
  | nil =>
    cases bs with
    | nil => rfl
    | cons b bs =>
      obtain ⟨h1, _⟩ := hb b List.mem_cons_self
      simp [List.flatMap_cons] at h
      exact absurd h.1 h1
  | cons a as ih =>
    obtain ⟨a1, a2, a3, a4⟩ := ha a List.mem_cons_self
    cases bs with
    | nil =>
      simp [List.flatMap_cons] at h
      exact absurd h.1 a1
    | cons b bs =>
      obtain ⟨b1, b2, b3, b4⟩ := hb b List.mem_cons_self
      simp only [List.flatMap_cons, List.append_assoc] at h
      have hh : ∀ (t r : List Byte), t ≠ [] → (∀ c ∈ t, P c = false) → ∀ c, (t ++ r).head? = some c → P c = false := by
        intro t r h0 h1 c hc
        cases t with
        | nil => exact absurd rfl h0
        | cons d t =>
          simp only [List.cons_append, List.head?_cons, Option.some.injEq] at hc
          exact h1 c (by rw [hc]; exact List.mem_cons_self)
      obtain ⟨e1, h⟩ := split_block a3 b3 (hh _ _ a2 a4) (hh _ _ b2 b4) h
      have ht : ∀ (l : List Arg), (∀ a ∈ l, Tagged P a) → ∀ c, (l.flatMap fun a => a.type ++ a.text).head? = some c →
          (!P c) = false := fun l hl c hc => by rw [head_type l hl c hc]; rfl
      have ha' : ∀ x ∈ as, Tagged P x := fun x hx => ha x (List.mem_cons_of_mem _ hx)
      have hb' : ∀ x ∈ bs, Tagged P x := fun x hx => hb x (List.mem_cons_of_mem _ hx)
      obtain ⟨e2, h⟩ := split_block (P := fun c => !P c) (fun c hc => by simp [a4 c hc]) (fun c hc => by simp [b4 c hc])
        (ht _ ha') (ht _ hb') h
      rw [ih bs ha' hb' h]
      cases a; cases b; simp_all

/-- two integers: type "i", texts "12" and "-3" -/
example : ∀ a ∈ ([⟨[105#8], [49#8, 50#8]⟩, ⟨[105#8], [45#8, 51#8]⟩] : List Arg), Tagged (fun c => c == 105#8) a := by
  intro a ha
  simp only [List.mem_cons, List.not_mem_nil, or_false] at ha
  rcases ha with rfl | rfl <;> refine ⟨by simp, by simp, by simp, by decide⟩

end Verif.Sha
