import Verif.Str.RegexProps
/-!
# Property C221 (replace_blocks)

`replace_blocks` (`utility/bits/string-find-replace.hpp:164-204`). The searches are those of `std::string`; as in `replace_block`, a search without progress is an endless loop.
-/
namespace Verif.Str
open Verif

/-! ### Model -/

/-- the loop over the separators (`string-find-replace.hpp:180-187`): the parts and the position after the last separator. The separators are searched up to the end of the whole text. -/
def partsLoop (os sep : Str) (p : Nat) (b : List Str) : Res (List Str × Nat) :=
  match sfind os sep p with
  | none => .ok (b, p)
  | some q => do
    let t ← substr os p (q - p)
    if p < q + sep.length ∧ p ≤ os.length then partsLoop os sep (q + sep.length) (b ++ [t]) else .diverge
termination_by os.length + 1 - p

/-- the loop over the blocks (`string-find-replace.hpp:173-199`); `p` is the result of the search for `begin`, `p0` the end of what was copied -/
def replaceBlocksLoop (os b sep e : Str) (convert : List Str → Str) (s : Str) (p0 : Nat) : Option Nat → Res Str
  | none => do
    let t ← substrFrom os p0
    pure (s ++ t)
  | some p => do
    let t ← substr os p0 (p - p0)
    let (bs, p) ← partsLoop os sep (p + b.length) []
    match sfind os e p with
    | none => .abort
    | some q => do
      let m ← substr os p (q - p)
      if p0 < q + e.length ∧ p0 ≤ os.length then
        replaceBlocksLoop os b sep e convert (s ++ t ++ convert (bs ++ [m])) (q + e.length) (sfind os b (q + e.length))
      else .diverge
termination_by os.length + 1 - p0

/-- `replace_blocks` (`string-find-replace.hpp:164-204`) -/
def replaceBlocks (os b sep e : Str) (convert : List Str → Str) : Res Str := replaceBlocksLoop os b sep e convert [] 0 (sfind os b 0)

/-! ### Helpers -/

theorem occursAt_left {pat m w : Str} {p : Nat} (h : OccursAt pat (m ++ w) p) (hp : p + pat.length ≤ m.length) : OccursAt pat m p := by
  unfold OccursAt at *
  rw [List.drop_append_of_le_length (by omega)] at h
  exact List.prefix_of_prefix_length_le h (List.prefix_append _ _) (by simp; omega)

theorem occursAt_right {pat m : Str} {p : Nat} (w : Str) (h : OccursAt pat m p) (hp : p ≤ m.length) : OccursAt pat (m ++ w) p := by
  unfold OccursAt at *
  rw [List.drop_append_of_le_length hp]
  exact h.trans (List.prefix_append _ _)

theorem isSplit_append {sep m : Str} {l : List Str} (h : IsSplit sep m l) (w : Str) (hw : ∀ p ≤ (m ++ w).length, OccursAt sep (m ++ w) p → p + sep.length ≤ m.length) :
    ∃ init x, l = init ++ [x] ∧ IsSplit sep (m ++ w) (init ++ [x ++ w]) := by
  induction h with
  | last m h =>
    refine ⟨[], m, rfl, .last _ fun p hp ho => ?_⟩
    have := hw p hp ho
    exact h p (by omega) (occursAt_left ho this)
  | cons a t rest h1 hr ih =>
    obtain ⟨init, x, e1, e2⟩ := ih fun p hp ho => by
      have h2 : OccursAt sep (a ++ sep ++ t ++ w) ((a ++ sep).length + p) := by
        rw [List.append_assoc (a ++ sep), occursAt_append]
        exact ho
      have := hw _ (by simp only [List.length_append] at hp ⊢; omega) h2
      simp only [List.length_append] at this
      omega
    refine ⟨a :: init, x, by rw [e1]; rfl, ?_⟩
    rw [List.append_assoc (a ++ sep)]
    refine .cons a (t ++ w) _ (fun p hp ho => ?_) e2
    rw [← List.append_assoc (a ++ sep)] at ho
    have := hw p (by simp only [List.length_append]; omega) ho
    exact h1 p hp (occursAt_left ho this)

theorem partsLoop_spec {sep : Str} (hp : sep ≠ []) {u : Str} {l : List Str} (h : IsSplit sep u l) (d : Str) (b : List Str) :
    ∃ init x y, l = init ++ [x] ∧ u = y ++ x ∧ partsLoop (d ++ u) sep d.length b = .ok (b ++ init, (d ++ y).length) := by
  induction h generalizing d b with
  | last s h =>
    refine ⟨[], s, [], rfl, rfl, ?_⟩
    unfold partsLoop
    rw [sfind_append_none h]
    simp
  | cons a t rest h1 hr ih =>
    obtain ⟨init, x, y, e1, e2, e3⟩ := ih (d ++ (a ++ sep)) (b ++ [a])
    refine ⟨a :: init, x, a ++ sep ++ y, by rw [e1]; rfl, by rw [e2]; simp, ?_⟩
    unfold partsLoop
    rw [sfind_append_some h1]
    have : sep.length ≠ 0 := by simpa using hp
    simp only
    have e4 : substr (d ++ (a ++ sep ++ t)) d.length (d.length + a.length - d.length) = .ok a := by
      unfold substr
      rw [if_neg (by simp)]
      simp
    rw [e4, Res.ok_bind, if_pos ⟨by omega, by simp⟩]
    rw [List.append_assoc d, List.length_append (as := d), List.length_append (as := a), ← Nat.add_assoc] at e3
    rw [e3]
    simp

/-! ### Specification -/

/-- all the separators after the opening of the first block are inside this block -/
def OneList (b sep e os : Str) : Prop :=
  ∀ a m t, os = a ++ b ++ (m ++ e ++ t) → (∀ p < a.length, ¬ OccursAt b os p) → (∀ p < m.length, ¬ OccursAt e (m ++ e ++ t) p) →
    ∀ p ≤ (m ++ e ++ t).length, OccursAt sep (m ++ e ++ t) p → p + sep.length ≤ m.length

theorem replaceBlocksLoop_spec (b sep e : Str) (convert : List Str → Str) (conv : Str → Str) (hc : ∀ m l, IsSplit sep m l → conv m = convert l) (hs : sep ≠ []) (hne : b ≠ [] ∨ e ≠ []) (d t s : Str)
    (ho : OneList b sep e t) :
    ∃ o, IsBlocks b e conv t o ∧ replaceBlocksLoop (d ++ t) b sep e convert s d.length (sfind (d ++ t) b d.length) = match o with | none => .abort | some out => .ok (s ++ out) := by
  induction hn : t.length using Nat.strongRecOn generalizing d t s with
  | _ n ih =>
    subst hn
    have hsl : sep.length ≠ 0 := by simpa using hs
    have hbe : b.length + e.length ≠ 0 := by
      rcases hne with hne | hne
      · have : b.length ≠ 0 := by simpa using hne
        omega
      · have : e.length ≠ 0 := by simpa using hne
        omega
    rcases split_first t b with h | ⟨a, u, rfl, h⟩
    · refine ⟨_, .stop t h, ?_⟩
      rw [sfind_append_none h]
      unfold replaceBlocksLoop substrFrom
      rw [if_neg (by simp)]
      simp
    · rw [sfind_append_some h]
      have e1 : substr (d ++ (a ++ b ++ u)) d.length (d.length + a.length - d.length) = .ok a := by
        unfold substr; rw [if_neg (by simp)]; simp
      have e2 : d ++ (a ++ b ++ u) = (d ++ a ++ b) ++ u := by simp
      have e3 : d.length + a.length + b.length = (d ++ a ++ b).length := by simp; omega
      rcases split_first u e with h2 | ⟨m, v, rfl, h2⟩
      · refine ⟨_, .bad a u h h2, ?_⟩
        obtain ⟨l, hl⟩ := isSplit_exists sep hs u
        obtain ⟨init, x, y, f1, f2, f3⟩ := partsLoop_spec hs hl (d ++ a ++ b) []
        unfold replaceBlocksLoop
        rw [e1, Res.ok_bind, e3, e2, f3, Res.ok_bind]
        dsimp only
        rw [f2, ← List.append_assoc, sfind_append_none fun p hp ho' => ?_]
        refine h2 (y.length + p) (by rw [f2, List.length_append]; omega) ?_
        rw [f2, occursAt_append]
        exact ho'
      · have hone := ho a m v rfl h h2
        obtain ⟨l, hl⟩ := isSplit_exists sep hs m
        obtain ⟨init, x, g1, g2⟩ := isSplit_append hl (e ++ v) (by rw [← List.append_assoc]; exact hone)
        obtain ⟨init', x', y, f1, f2, f3⟩ := partsLoop_spec hs g2 (d ++ a ++ b) []
        obtain ⟨rfl, f4⟩ := List.append_inj' f1 rfl
        obtain rfl : x ++ (e ++ v) = x' := by simpa using f4
        have hm : m = y ++ x := by
          have f5 : m ++ (e ++ v) = y ++ x ++ (e ++ v) := by rw [f2]; simp
          exact List.append_cancel_right f5
        obtain ⟨o, k1, k2⟩ := ih v.length (by simp only [List.length_append]; omega) (d ++ a ++ b ++ m ++ e) v (s ++ a ++ conv m) (by
          intro a' m' t' hv _ _ p hp hop
          exfalso
          have := hone ((m ++ e).length + ((a' ++ b).length + p)) (by rw [List.length_append (bs := v), hv, List.length_append (bs := m' ++ e ++ t')]; omega) (by
            rw [occursAt_append, hv, occursAt_append]
            exact hop)
          simp only [List.length_append] at this
          omega) rfl
        refine ⟨_, .block a m v o h h2 k1, ?_⟩
        unfold replaceBlocksLoop
        rw [e1, Res.ok_bind, e3, e2, List.append_assoc m, f3, Res.ok_bind]
        dsimp only
        have e5 : d ++ a ++ b ++ (m ++ (e ++ v)) = (d ++ a ++ b ++ y) ++ (x ++ e ++ v) := by rw [hm]; simp
        rw [e5, sfind_append_some (fun p hp ho' => h2 (y.length + p) (by rw [hm, List.length_append]; omega) (by
          rw [hm, List.append_assoc, List.append_assoc, occursAt_append, ← List.append_assoc]
          exact ho'))]
        dsimp only
        have e4 : substr (d ++ a ++ b ++ y ++ (x ++ e ++ v)) (d ++ a ++ b ++ y).length ((d ++ a ++ b ++ y).length + x.length - (d ++ a ++ b ++ y).length) = .ok x := by
          unfold substr; rw [if_neg (by simp), List.drop_left]; simp
        have hlt : d.length < (d ++ a ++ b ++ y).length + x.length + e.length := by
          simp only [List.length_append]; omega
        rw [e4, Res.ok_bind, if_pos ⟨hlt, by simp⟩]
        have e6 : d ++ a ++ b ++ y ++ (x ++ e ++ v) = (d ++ a ++ b ++ m ++ e) ++ v := by rw [hm]; simp
        have e7 : (d ++ a ++ b ++ y).length + x.length + e.length = (d ++ a ++ b ++ m ++ e).length := by
          rw [hm]; simp only [List.length_append]; omega
        rw [List.nil_append, ← g1, ← hc m l hl, e6, e7, k2]
        cases o <;> simp

/-! ### C221 -/

/-- `replace_blocks` replaces each block by what `convert` gives for the parts of the block between separators, copies the rest of the text, and stops exactly if a block is not closed. (Full statement: for
all texts. Here all the separators after the opening of the first block are inside this block.) -/
theorem C221_blocks_partial (os b sep e : Str) (convert : List Str → Str) (conv : Str → Str) (hc : ∀ m l, IsSplit sep m l → conv m = convert l) (hs : sep ≠ []) (hne : b ≠ [] ∨ e ≠ [])
    (ho : OneList b sep e os) : ∃ o, IsBlocks b e conv os o ∧ replaceBlocks os b sep e convert = match o with | none => .abort | some out => .ok out := by
  obtain ⟨o, h1, h2⟩ := replaceBlocksLoop_spec b sep e convert conv hc hs hne [] os [] ho
  refine ⟨o, h1, ?_⟩
  simpa [replaceBlocks] using h2

/-- Without separators after the first block there is no condition: the hypothesis is met, for instance, by a text without separators. -/
example (b sep e os : Str) (h : ∀ p ≤ os.length, ¬ OccursAt sep os p) : OneList b sep e os := by
  intro a m t hos _ _ p hp ho
  exact absurd (hos ▸ (occursAt_append _ _ _ _).2 ho) (h ((a ++ b).length + p) (by rw [hos, List.length_append (bs := m ++ e ++ t)]; omega))

/-- the parts of a block, with brackets around each of them -/
def show_ (l : List Str) : Str := (l.map fun s => '<' :: s ++ ['>']).flatten

theorem parts_step {os sep t : Str} {p q : Nat} (b : List Str) (h1 : sfind os sep p = some q) (h2 : substr os p (q - p) = .ok t) (h3 : p < q + sep.length ∧ p ≤ os.length) :
    partsLoop os sep p b = partsLoop os sep (q + sep.length) (b ++ [t]) := by
  conv_lhs => unfold partsLoop
  rw [h1]
  dsimp only
  rw [h2, Res.ok_bind, if_pos h3]

theorem parts_end {os sep : Str} {p : Nat} (b : List Str) (h1 : sfind os sep p = none) : partsLoop os sep p b = .ok (b, p) := by
  unfold partsLoop
  rw [h1]

theorem blocks_step {os b sep e t m : Str} {p0 p p' q : Nat} {bs : List Str} (convert : List Str → Str) (s : Str) (h1 : substr os p0 (p - p0) = .ok t) (h2 : partsLoop os sep (p + b.length) [] = .ok (bs, p'))
    (h3 : sfind os e p' = some q) (h4 : substr os p' (q - p') = .ok m) (h5 : p0 < q + e.length ∧ p0 ≤ os.length) :
    replaceBlocksLoop os b sep e convert s p0 (some p) = replaceBlocksLoop os b sep e convert (s ++ t ++ convert (bs ++ [m])) (q + e.length) (sfind os b (q + e.length)) := by
  conv_lhs => unfold replaceBlocksLoop
  rw [h1, Res.ok_bind, h2, Res.ok_bind]
  dsimp only
  rw [h3]
  dsimp only
  rw [h4, Res.ok_bind, if_pos h5]

theorem blocks_end {os b sep e t : Str} {p0 : Nat} (convert : List Str → Str) (s : Str) (h : substrFrom os p0 = .ok t) : replaceBlocksLoop os b sep e convert s p0 none = .ok (s ++ t) := by
  unfold replaceBlocksLoop
  rw [h]
  rfl

/-- an example with two blocks; the last one has two parts: the first one gets the text up to the last separator -/
theorem C221_lists_refuted : replaceBlocks "x{a|b}y{c|d}z".toList "{".toList "|".toList "}".toList show_ = .ok "x<a><b}y{c><d>z".toList ∧
    IsBlocks "{".toList "}".toList (fun m => if m = "a|b".toList then "<a><b>".toList else "<c><d>".toList) "x{a|b}y{c|d}z".toList (some "x<a><b>y<c><d>z".toList) := by
  constructor
  · unfold replaceBlocks
    rw [show sfind "x{a|b}y{c|d}z".toList "{".toList 0 = some 1 by decide]
    rw [blocks_step (t := "x".toList) (m := "d".toList) (p' := 10) (q := 11) (bs := ["a".toList, "b}y{c".toList]) _ _ (by decide) _ (by decide) (by decide) (by decide)]
    · rw [show sfind "x{a|b}y{c|d}z".toList "{".toList (11 + "}".toList.length) = none by decide, blocks_end (t := "z".toList) _ _ (by decide)]
      decide
    · rw [parts_step (q := 3) (t := "a".toList) _ (by decide) (by decide) (by decide), parts_step (q := 9) (t := "b}y{c".toList) _ (by decide) (by decide) (by decide), parts_end _ (by decide)]
      decide
  · refine .block "x".toList "a|b".toList "y{c|d}z".toList (some "y<c><d>z".toList) ?_ ?_ (.block "y".toList "c|d".toList "z".toList (some "z".toList) ?_ ?_ (.stop _ ?_)) <;> unfold OccursAt <;> decide

/-- an example with a list -/
example : replaceBlocks "x{a|b}y".toList "{".toList "|".toList "}".toList show_ = .ok "x<a><b>y".toList := by
  unfold replaceBlocks
  rw [show sfind "x{a|b}y".toList "{".toList 0 = some 1 by decide]
  rw [blocks_step (t := "x".toList) (m := "b".toList) (p' := 4) (q := 5) (bs := ["a".toList]) _ _ (by decide) _ (by decide) (by decide) (by decide)]
  · rw [show sfind "x{a|b}y".toList "{".toList (5 + "}".toList.length) = none by decide, blocks_end (t := "y".toList) _ _ (by decide)]
    decide
  · rw [parts_step (q := 3) (t := "a".toList) _ (by decide) (by decide) (by decide), parts_end _ (by decide)]
    decide

/-- With an empty separator the search for the parts never ends. -/
theorem C221_empty_separator (os b e : Str) (convert : List Str → Str) (p : Nat) (h : sfind os b 0 = some p) : replaceBlocks os b [] e convert = .diverge := by
  unfold replaceBlocks
  rw [h]
  obtain ⟨-, h2, h3, -⟩ := sfind_some.1 h
  have h4 := h3.le h2
  have h5 : sfind os [] (p + b.length) = some (p + b.length) := sfind_some.2 ⟨Nat.le_refl _, h4, by simp [OccursAt], fun j h1 h2 => by omega⟩
  unfold replaceBlocksLoop partsLoop
  rw [h5]
  have h6 : ¬ os.length < p + b.length := by omega
  simp [substr, h6]

end Verif.Str
