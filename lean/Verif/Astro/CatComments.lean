import Verif.Str.SplitProps
import Verif.Str.TrimProps
import Mathlib.Data.List.Nodup
/-!
# The comments of a catalogue: `add_comment` and `build_comments` (C238)

`std::map` is a list of pairs in the order of the names; names are compared character by character.
-/
namespace Verif.CatComments
open Verif Verif.Str

/-! ### Model -/

/-- `var_pool.insert(std::make_pair(var, com))` (`catalog_merge.hpp:25-27`): a name that is present keeps its comment -/
def addComment (var com : Str) : List (Str × Str) → List (Str × Str)
  | [] => [(var, com)]
  | (k, c) :: l => if k = var then (k, c) :: l else if var < k then (var, com) :: (k, c) :: l else (k, c) :: addComment var com l

/-- the indentation of level `n` (`catalog_merge.hpp:49-53, 59-63`) -/
def tab : Nat → Str
  | 0 => []
  | n + 1 => tab n ++ (if n % 2 = 0 then ['|', ' '] else [':', ' '])

/-- the first loop (`catalog_merge.hpp:47-54`): the number of names in common -/
def common : List Str → List Str → Nat
  | x :: a, y :: b => if x = y then common a b + 1 else 0
  | _, _ => 0

/-- the lines of a variable (`catalog_merge.hpp:42-68`) after one with names `tree`; `ltree[i]` is checked -/
def varLines (width : Nat) (tree ltree : List Str) (com : Str) : Res (List Str) := do
  let ic := common tree ltree
  let i := max ic (ltree.length - 1)
  match ltree[i]? with
  | none => .abort
  | some name => do
    let l ← wrap (tab i ++ (name ++ [':', ' ']) ++ com) width (tab i ++ List.replicate (name.length + 2) ' ') false
    .ok ((((List.range (ltree.length - 1)).drop ic).map fun j => tab j ++ ltree.getD j []) ++ l)

/-- the loop on the variables (`catalog_merge.hpp:40-71`) -/
def varLoop (width : Nat) : List Str → List (Str × Str) → Res (List Str)
  | _, [] => .ok []
  | tree, (k, com) :: l => do
    let pieces ← split k ['.']
    let ltree ← pieces.mapM fun s => trim s blanks
    let a ← varLines width tree ltree com
    let b ← varLoop width ltree l
    .ok (a ++ b)

/-- `build_comments` (`catalog_merge.hpp:29-74`): the lines of the text -/
def buildComments (width : Nat) (coms : List Str) (vars : List (Str × Str)) : Res (List Str) := do
  let a ← coms.mapM fun s => wrap s width [] false
  let b ← varLoop width [] vars
  .ok (a.flatten ++ b)

/-! ### Specification -/

/-- a line of the tree: its depth, its name, its comment if it is that of a variable -/
structure Entry where
  depth : Nat
  name : Str
  com : Option Str

/-- how a line looks like -/
def Entry.text (e : Entry) : Str := tab e.depth ++ e.name ++ (match e.com with | none => [] | some c => [':', ' '] ++ c)

/-- what a reader understands: a line is below the last line of each smaller depth -/
def readTree : List Str → List Entry → List (List Str × Str)
  | _, [] => []
  | st, e :: l =>
    let p := st.take e.depth ++ [e.name]
    match e.com with
    | none => readTree p l
    | some c => (p, c) :: readTree p l

/-! ### Lemmas -/

theorem common_spec (a b : List Str) : common a b ≤ a.length ∧ common a b ≤ b.length ∧ a.take (common a b) = b.take (common a b) ∧
    ∀ n, n ≤ a.length → n ≤ b.length → a.take n = b.take n → n ≤ common a b := by
  induction a generalizing b with
  | nil => simp [common]
  | cons x a ih =>
    cases b with
    | nil => simp [common]
    | cons y b =>
      obtain ⟨h1, h2, h3, h4⟩ := ih b
      unfold common
      by_cases hxy : x = y
      · rw [if_pos hxy]
        refine ⟨by simpa using h1, by simpa using h2, by simp [hxy, h3], ?_⟩
        intro n hn hm he
        cases n with
        | zero => omega
        | succ n =>
          simp only [List.take_succ_cons, List.cons.injEq] at he
          have := h4 n (by simpa using hn) (by simpa using hm) he.2
          omega
      · rw [if_neg hxy]
        refine ⟨by simp, by simp, by simp, ?_⟩
        intro n hn hm he
        cases n with
        | zero => omega
        | succ n =>
          simp only [List.take_succ_cons, List.cons.injEq] at he
          exact absurd he.1 hxy

theorem common_lt (a b : List Str) (hb : b ≠ []) (h : ¬ b <+: a) : common a b ≤ b.length - 1 := by
  obtain ⟨h1, h2, h3, _⟩ := common_spec a b
  by_contra hc
  have hl : 0 < b.length := List.length_pos_of_ne_nil hb
  have he : common a b = b.length := by omega
  rw [he, List.take_length] at h3
  exact h (h3 ▸ List.take_prefix _ _)

theorem wrap_short (s : Str) (width : Nat) (indent : Str) (h : s.length ≤ width) (hs : s ≠ []) : wrap s width indent false = .ok [s] := by
  unfold wrap wrapLoop
  simp [hs, Nat.not_lt.2 h]

/-- the lines of a variable with names `p` after one with names `t` -/
def entries (t p : List Str) (c : Str) : List Entry :=
  (((List.range (p.length - 1)).drop (common t p)).map fun j => ⟨j, p.getD j [], none⟩) ++ [⟨p.length - 1, p.getD (p.length - 1) [], some c⟩]

theorem take_getD (p : List Str) (j : Nat) (h : j < p.length) : p.take j ++ [p.getD j []] = p.take (j + 1) := by
  rw [List.getD_eq_getElem?_getD, List.getElem?_eq_getElem h]
  simp

theorem read_groups (p : List Str) (rest : List Entry) (n j : Nat) (st : List Str) (hj : j + n = p.length - 1) (hst : st.take j = p.take j) :
    readTree st (((List.range' j n).map fun j => (⟨j, p.getD j [], none⟩ : Entry)) ++ rest) =
      readTree (if n = 0 then st else p.take (p.length - 1)) rest := by
  induction n generalizing j st with
  | zero => simp
  | succ n ih =>
    rw [List.range'_succ, List.map_cons, List.cons_append, readTree]
    simp only
    rw [hst, take_getD p j (by omega), ih (j + 1) _ (by omega) (by rw [List.take_take, Nat.min_self])]
    rw [if_neg (show ¬ n + 1 = 0 by omega)]
    by_cases h0 : n = 0
    · rw [if_pos h0, show j + 1 = p.length - 1 by omega]
    · rw [if_neg h0]

theorem drop_range (n k : Nat) : (List.range n).drop k = List.range' k (n - k) := by
  rw [List.range_eq_range', List.drop_range']; simp

theorem read_entries (t p : List Str) (c : Str) (rest : List Entry) (hp : p ≠ []) (h : ¬ p <+: t) :
    readTree t (entries t p c ++ rest) = (p, c) :: readTree p rest := by
  have hl : 0 < p.length := List.length_pos_of_ne_nil hp
  have hc := common_lt t p hp h
  obtain ⟨_, _, h3, _⟩ := common_spec t p
  unfold entries
  rw [drop_range, List.append_assoc, read_groups p _ _ (common t p) t (by omega) h3, List.singleton_append, readTree]
  simp only
  have ht : (if p.length - 1 - common t p = 0 then t else p.take (p.length - 1)).take (p.length - 1) = p.take (p.length - 1) := by
    by_cases h0 : p.length - 1 - common t p = 0
    · rw [if_pos h0]
      have : common t p = p.length - 1 := by omega
      rw [← this]; exact h3
    · rw [if_neg h0, List.take_take, Nat.min_self]
  rw [ht, take_getD p _ (by omega), show p.length - 1 + 1 = p.length by omega, List.take_length]

theorem varLines_spec (width : Nat) (t p : List Str) (c : Str) (hp : p ≠ []) (h : ¬ p <+: t)
    (hw : ∀ e ∈ entries t p c, e.text.length ≤ width) : varLines width t p c = .ok ((entries t p c).map Entry.text) := by
  have hl : 0 < p.length := List.length_pos_of_ne_nil hp
  have hc := common_lt t p hp h
  unfold varLines
  dsimp only
  rw [Nat.max_eq_right hc, List.getElem?_eq_getElem (show p.length - 1 < p.length by omega)]
  dsimp only
  have hg : p.getD (p.length - 1) [] = p[p.length - 1] := by
    rw [List.getD_eq_getElem?_getD, List.getElem?_eq_getElem (show p.length - 1 < p.length by omega)]; rfl
  have hlast := hw ⟨p.length - 1, p.getD (p.length - 1) [], some c⟩ (by unfold entries; simp)
  unfold Entry.text at hlast
  simp only [hg] at hlast
  rw [wrap_short _ width _ (by simpa using hlast) (by simp), Res.ok_bind]
  unfold entries
  rw [List.map_append, List.map_map]
  simp only [List.map_cons, List.map_nil, Entry.text, hg, Function.comp_def, List.append_nil, List.append_assoc]

/-- the lines of all the variables -/
def outline : List Str → List (List Str × Str) → List Entry
  | _, [] => []
  | t, (p, c) :: l => entries t p c ++ outline p l

/-- no list of names is the beginning of the one before it -/
def NotPrefix : List Str → List (List Str × Str) → Prop
  | _, [] => True
  | t, (p, _) :: l => p ≠ [] ∧ ¬ p <+: t ∧ NotPrefix p l

theorem read_outline (t : List Str) (l : List (List Str × Str)) (h : NotPrefix t l) : readTree t (outline t l) = l := by
  induction l generalizing t with
  | nil => rfl
  | cons a l ih =>
    obtain ⟨p, c⟩ := a
    obtain ⟨h1, h2, h3⟩ := h
    rw [outline, read_entries t p c _ h1 h2, ih p h3]

/-- the names of a variable: the pieces of its name between the points -/
def names (k : Str) : List Str := match split k ['.'] with
  | .ok l => l
  | _ => []

theorem split_names (k : Str) : split k ['.'] = .ok (names k) ∧ names k ≠ [] ∧ List.intercalate ['.'] (names k) = k := by
  obtain ⟨l, h, _⟩ := C34_split k ['.'] (by simp)
  obtain ⟨h1, _, h3⟩ := C34_collapse_split k ['.'] l (by simp) h
  have : names k = l := by unfold names; rw [h]
  rw [this]
  exact ⟨h, h3, by rw [← collapseSep_eq]; exact h1⟩

theorem trim_self (s : Str) (h : ∀ c ∈ s, c ∉ blanks) : trim s blanks = .ok s := by
  obtain ⟨m, h1, h2⟩ := C36_trim s blanks
  rw [h1]
  congr 1
  obtain ⟨a, b, e, ha, hb, _⟩ := h2
  have ha' : a = [] := by
    cases a with
    | nil => rfl
    | cons x a => exact absurd (ha x (by simp)) (h x (by rw [e]; simp))
  have hb' : b = [] := by
    cases b with
    | nil => rfl
    | cons x b => exact absurd (hb x (by simp)) (h x (by rw [e]; simp))
  rw [e, ha', hb']; simp

theorem mem_intercalate (l : List Str) (s : Str) (hs : s ∈ l) : ∀ c ∈ s, c ∈ List.intercalate ['.'] l := by
  intro c hc
  induction l with
  | nil => simp at hs
  | cons x l ih =>
    cases l with
    | nil =>
      simp only [List.mem_singleton] at hs
      subst hs
      simpa [List.intercalate] using hc
    | cons y l =>
      have e : List.intercalate ['.'] (x :: y :: l) = x ++ ['.'] ++ List.intercalate ['.'] (y :: l) := by simp [List.intercalate]
      rw [e]
      rcases List.mem_cons.1 hs with rfl | hs
      · simp [hc]
      · simp [ih hs]

theorem trim_names (k : Str) (h : ∀ c ∈ k, c ∉ blanks) : (names k).mapM (fun s => trim s blanks) = .ok (names k) := by
  have := Res.mapM_ok (f := fun s => trim s blanks) (g := fun s => s) (l := names k) (fun s hs => trim_self s fun c hc => h c (by
    rw [← (split_names k).2.2]; exact mem_intercalate _ s hs c hc))
  simpa using this

theorem varLoop_spec (width : Nat) (t : List Str) (vars : List (Str × Str)) (hb : ∀ v ∈ vars, ∀ c ∈ v.1, c ∉ blanks)
    (hn : NotPrefix t (vars.map fun v => (names v.1, v.2)))
    (hw : ∀ e ∈ outline t (vars.map fun v => (names v.1, v.2)), e.text.length ≤ width) :
    varLoop width t vars = .ok ((outline t (vars.map fun v => (names v.1, v.2))).map Entry.text) := by
  induction vars generalizing t with
  | nil => rfl
  | cons v vars ih =>
    obtain ⟨k, c⟩ := v
    simp only [List.map_cons] at hn hw ⊢
    obtain ⟨h1, h2, h3⟩ := hn
    rw [outline] at hw ⊢
    rw [varLoop, (split_names k).1, Res.ok_bind, trim_names k (hb (k, c) (by simp)), Res.ok_bind,
      varLines_spec width t (names k) c h1 h2 (fun e he => hw e (by simp [he])), Res.ok_bind,
      ih (names k) (fun v hv => hb v (by simp [hv])) h3 (fun e he => hw e (by simp [he])), Res.ok_bind, List.map_append]

theorem intercalate_prefix (q p : List Str) (hq : q ≠ []) (h : q <+: p) : List.intercalate ['.'] q <+: List.intercalate ['.'] p := by
  obtain ⟨r, rfl⟩ := h
  induction q with
  | nil => exact absurd rfl hq
  | cons x q ih =>
    cases q with
    | nil =>
      cases r with
      | nil => simp
      | cons y r => simp [List.intercalate]
    | cons y q =>
      have e1 : List.intercalate ['.'] (x :: y :: q) = x ++ ['.'] ++ List.intercalate ['.'] (y :: q) := by simp [List.intercalate]
      have e2 : List.intercalate ['.'] (x :: y :: q ++ r) = x ++ ['.'] ++ List.intercalate ['.'] (y :: q ++ r) := by simp [List.intercalate]
      rw [e1, e2]
      exact List.prefix_append_right_inj _ |>.2 (ih (by simp))

theorem sorted_notPrefix (t : List Str) (k0 : Str) (ht : t = [] ∨ t = names k0) (vars : List (Str × Str))
    (hs : (k0 :: vars.map (·.1)).Pairwise (· < ·) ∨ (t = [] ∧ (vars.map (·.1)).Pairwise (· < ·))) : NotPrefix t (vars.map fun v => (names v.1, v.2)) := by
  induction vars generalizing t k0 with
  | nil => trivial
  | cons v vars ih =>
    obtain ⟨k, c⟩ := v
    simp only [List.map_cons] at hs ⊢
    obtain ⟨_, n2, n3⟩ := split_names k
    refine ⟨n2, ?_, ?_⟩
    · intro hpre
      rcases ht with rfl | rfl
      · exact n2 (List.prefix_nil.1 hpre)
      · rcases hs with hs | ⟨h0, _⟩
        · have h1 : k0 < k := (List.pairwise_cons.1 hs).1 k (by simp)
          have h2 := intercalate_prefix _ _ n2 hpre
          rw [n3, (split_names k0).2.2] at h2
          exact (List.IsPrefix.le h2) h1
        · exact (split_names k0).2.1 h0
    · refine ih (names k) k (.inr rfl) (.inl ?_)
      rcases hs with hs | ⟨_, hs⟩
      · exact (List.pairwise_cons.1 hs).2
      · exact hs

/-! ### C238 -/

/-- the names given to `add_comment`, one after the other -/
def addAll (cs : List (Str × Str)) : List (Str × Str) := cs.foldl (fun l c => addComment c.1 c.2 l) []

theorem addComment_mem (var com : Str) (l : List (Str × Str)) (x : Str × Str) (h : x ∈ addComment var com l) : x = (var, com) ∨ x ∈ l := by
  induction l with
  | nil => left; simpa [addComment] using h
  | cons a l ih =>
    obtain ⟨k, c⟩ := a
    rw [addComment] at h
    split at h
    · exact .inr h
    · split at h
      · rcases List.mem_cons.1 h with h | h
        · exact .inl h
        · exact .inr h
      · rcases List.mem_cons.1 h with h | h
        · exact .inr (by simp [h])
        · rcases ih h with h | h
          · exact .inl h
          · exact .inr (by simp [h])

theorem addComment_sorted (var com : Str) (l : List (Str × Str)) (h : (l.map (·.1)).Pairwise (· < ·)) :
    ((addComment var com l).map (·.1)).Pairwise (· < ·) := by
  induction l with
  | nil => simp [addComment]
  | cons a l ih =>
    obtain ⟨k, c⟩ := a
    have h' := h
    rw [List.map_cons, List.pairwise_cons] at h
    rw [addComment]
    split
    · exact h'
    · rename_i hne
      split
      · rename_i hlt
        rw [List.map_cons, List.pairwise_cons]
        refine ⟨fun b hb => ?_, h'⟩
        rcases List.mem_cons.1 hb with rfl | hb
        · exact hlt
        · exact List.lt_trans hlt (h.1 b hb)
      · rename_i hlt
        rw [List.map_cons, List.pairwise_cons]
        refine ⟨fun b hb => ?_, ih h.2⟩
        obtain ⟨x, hx, rfl⟩ := List.mem_map.1 hb
        rcases addComment_mem var com l x hx with rfl | hx
        · rcases List.le_iff_lt_or_eq.1 (show k ≤ var from hlt) with h1 | h1
          · exact h1
          · exact absurd h1 hne
        · exact h.1 _ (List.mem_map.2 ⟨x, hx, rfl⟩)

theorem addComment_look (var com : Str) (l : List (Str × Str)) (h : (l.map (·.1)).Pairwise (· < ·)) (k c : Str) :
    (k, c) ∈ addComment var com l ↔ (k, c) ∈ l ∨ (k = var ∧ c = com ∧ var ∉ l.map (·.1)) := by
  induction l with
  | nil => simp [addComment]
  | cons a l ih =>
    obtain ⟨k', c'⟩ := a
    rw [List.map_cons, List.pairwise_cons] at h
    rw [addComment]
    split
    · rename_i he
      constructor
      · exact .inl
      · rintro (h1 | ⟨_, _, h3⟩)
        · exact h1
        · exact absurd (by simp [he]) h3
    · rename_i hne
      split
      · rename_i hlt
        have hnot : var ∉ ((k', c') :: l).map (·.1) := by
          intro hm
          rcases List.mem_cons.1 hm with hm | hm
          · exact hne hm.symm
          · exact List.lt_asymm hlt (h.1 _ hm)
        rw [List.mem_cons, Prod.mk.injEq]
        constructor
        · rintro (⟨rfl, rfl⟩ | h1)
          · exact .inr ⟨rfl, rfl, hnot⟩
          · exact .inl h1
        · rintro (h1 | ⟨h1, h2, _⟩)
          · exact .inr h1
          · exact .inl ⟨h1, h2⟩
      · rw [List.mem_cons, ih h.2, List.mem_cons, or_assoc]
        have : var ∉ ((k', c') :: l).map (·.1) ↔ var ∉ l.map (·.1) := by
          simp only [List.map_cons, List.mem_cons, not_or, and_iff_right_iff_imp]
          exact fun _ => Ne.symm hne
        rw [this]

/-- **C238** After any sequence of `add_comment`, the names are in order, each once, and the comment of a name is the first one that was given to it. -/
theorem C238_first (cs : List (Str × Str)) : ((addAll cs).map (·.1)).Pairwise (· < ·) ∧
    ∀ k c, (k, c) ∈ addAll cs ↔ ∃ a b, cs = a ++ (k, c) :: b ∧ k ∉ a.map (·.1) := by
  have key : ∀ cs' : List (Str × Str), cs' <+: cs → ((addAll cs').map (·.1)).Pairwise (· < ·) ∧
      ∀ k c, (k, c) ∈ addAll cs' ↔ ∃ a b, cs' = a ++ (k, c) :: b ∧ k ∉ a.map (·.1) := by
    intro cs'
    obtain ⟨n, hn⟩ : ∃ n, n = cs'.length := ⟨_, rfl⟩
    induction n generalizing cs' with
    | zero =>
      rw [List.length_eq_zero_iff.1 hn.symm]; intro _; simp [addAll]
    | succ n ih0 =>
      obtain ⟨l, x, rfl⟩ : ∃ l x, cs' = l ++ [x] := by
        rcases List.eq_nil_or_concat cs' with rfl | ⟨l, x, h⟩
        · simp at hn
        · exact ⟨l, x, by simpa using h⟩
      have ih := ih0 l (by simpa using hn)
      intro hpre
      obtain ⟨i1, i2⟩ := ih ((List.prefix_append l [x]).trans hpre)
      have e : addAll (l ++ [x]) = addComment x.1 x.2 (addAll l) := by simp [addAll]
      refine ⟨by rw [e]; exact addComment_sorted _ _ _ i1, fun k c => ?_⟩
      have hmem : ∀ v, v ∈ (addAll l).map (·.1) ↔ v ∈ l.map (·.1) := by
        intro v
        constructor
        · intro hv
          obtain ⟨⟨v', c'⟩, hx, rfl⟩ := List.mem_map.1 hv
          obtain ⟨a, b, rfl, _⟩ := (i2 v' c').1 hx
          simp
        · intro hv
          have hex : ∀ m : List (Str × Str), v ∈ m.map (·.1) → ∃ a b c', m = a ++ (v, c') :: b ∧ v ∉ a.map (·.1) := by
            intro m hm
            induction m with
            | nil => simp at hm
            | cons y m ihm =>
              obtain ⟨y1, y2⟩ := y
              by_cases hy : y1 = v
              · exact ⟨[], m, y2, by simp [hy], by simp⟩
              · have hm' : v ∈ m.map (·.1) := by
                  rcases List.mem_cons.1 hm with h | h
                  · exact absurd h.symm hy
                  · exact h
                obtain ⟨a, b, c', e1, e2⟩ := ihm hm'
                refine ⟨(y1, y2) :: a, b, c', by simp [e1], ?_⟩
                rw [List.map_cons, List.mem_cons, not_or]
                exact ⟨fun h => hy h.symm, e2⟩
          obtain ⟨a, b, c', e1, e2⟩ := hex l hv
          exact List.mem_map.2 ⟨(v, c'), (i2 v c').2 ⟨a, b, e1, e2⟩, rfl⟩
      rw [e, addComment_look _ _ _ i1, i2, hmem]
      constructor
      · rintro (⟨a, b, rfl, h2⟩ | ⟨rfl, rfl, h3⟩)
        · exact ⟨a, b ++ [x], by simp, h2⟩
        · exact ⟨l, [], rfl, h3⟩
      · rintro ⟨a, b, h1, h2⟩
        rcases List.eq_nil_or_concat b with rfl | ⟨b', y, rfl⟩
        · obtain ⟨rfl, h⟩ := List.append_inj' h1 rfl
          simp only [List.cons.injEq, and_true] at h
          subst h
          exact .inr ⟨rfl, rfl, h2⟩
        · have h3 : l ++ [x] = (a ++ (k, c) :: b') ++ [y] := by simpa using h1
          obtain ⟨rfl, _⟩ := List.append_inj' h3 rfl
          exact .inl ⟨a, b', rfl, h2⟩
  exact key cs (List.prefix_refl cs)

/-- **C238 (in part)** For names without blanks and lines that fit in the width, the text is the list of general comments, followed by a tree in which a reader
finds each variable, in order, with all its names and its comment. -/
theorem C238_tree_partial (width : Nat) (coms : List Str) (cs : List (Str × Str)) (hc : ∀ s ∈ coms, s ≠ [] ∧ s.length ≤ width)
    (hb : ∀ v ∈ cs, ∀ c ∈ v.1, c ∉ blanks)
    (hw : ∀ e ∈ outline [] ((addAll cs).map fun v => (names v.1, v.2)), e.text.length ≤ width) :
    ∃ es : List Entry, buildComments width coms (addAll cs) = .ok (coms ++ es.map Entry.text) ∧
      es = outline [] ((addAll cs).map fun v => (names v.1, v.2)) ∧ readTree [] es = (addAll cs).map fun v => (names v.1, v.2) := by
  obtain ⟨h1, h2⟩ := C238_first cs
  have hn := sorted_notPrefix [] [] (.inl rfl) (addAll cs) (.inr ⟨rfl, h1⟩)
  refine ⟨_, ?_, rfl, read_outline [] _ hn⟩
  unfold buildComments
  rw [Res.mapM_ok (g := fun s => [s]) (fun s hs => wrap_short s width [] (hc s hs).2 (hc s hs).1), Res.ok_bind,
    varLoop_spec width [] (addAll cs) ?_ hn hw, Res.ok_bind]
  · congr 2
    induction coms with
    | nil => rfl
    | cons s l ih => simp [ih fun s hs => hc s (by simp [hs])]
  · rintro ⟨k, c⟩ hv
    obtain ⟨a, b, rfl, _⟩ := (h2 k c).1 hv
    exact hb (k, c) (by simp)

theorem names_of (l : List Str) (hl : l ≠ []) (h : ∀ x ∈ l, '.' ∉ x) : names (List.intercalate ['.'] l) = l := by
  unfold names
  rw [← collapseSep_eq, C34_split_collapse l '.' hl h]

/-- the headings of the tree, with the names above them -/
def headings : List Str → List Entry → List (List Str)
  | _, [] => []
  | st, e :: l =>
    let p := st.take e.depth ++ [e.name]
    match e.com with
    | none => p :: headings p l
    | some _ => headings p l

theorem headings_groups (p : List Str) (rest : List Entry) (n j : Nat) (st : List Str) (hj : j + n = p.length - 1) (hst : st.take j = p.take j) :
    headings st (((List.range' j n).map fun j => (⟨j, p.getD j [], none⟩ : Entry)) ++ rest) =
      ((List.range' j n).map fun j => p.take (j + 1)) ++ headings (if n = 0 then st else p.take (p.length - 1)) rest := by
  induction n generalizing j st with
  | zero => simp
  | succ n ih =>
    rw [List.range'_succ, List.map_cons, List.cons_append, headings]
    simp only
    rw [hst, take_getD p j (by omega), ih (j + 1) _ (by omega) (by rw [List.take_take, Nat.min_self])]
    rw [if_neg (show ¬ n + 1 = 0 by omega), List.map_cons, List.cons_append]
    by_cases h0 : n = 0
    · rw [if_pos h0, show j + 1 = p.length - 1 by omega]
    · rw [if_neg h0]

theorem headings_entries (t p : List Str) (c : Str) (rest : List Entry) (hp : p ≠ []) (h : ¬ p <+: t) :
    headings t (entries t p c ++ rest) = ((List.range' (common t p) (p.length - 1 - common t p)).map fun j => p.take (j + 1)) ++ headings p rest := by
  have hl : 0 < p.length := List.length_pos_of_ne_nil hp
  have hc := common_lt t p hp h
  obtain ⟨_, _, h3, _⟩ := common_spec t p
  unfold entries
  rw [drop_range, List.append_assoc, headings_groups p _ _ (common t p) t (by omega) h3, List.singleton_append, headings]
  simp only
  have ht : (if p.length - 1 - common t p = 0 then t else p.take (p.length - 1)).take (p.length - 1) = p.take (p.length - 1) := by
    by_cases h0 : p.length - 1 - common t p = 0
    · rw [if_pos h0]
      have : common t p = p.length - 1 := by omega
      rw [← this]; exact h3
    · rw [if_neg h0, List.take_take, Nat.min_self]
  rw [ht, take_getD p _ (by omega), show p.length - 1 + 1 = p.length by omega, List.take_length]

/-- `h` is a proper beginning of `p` -/
def Above (h p : List Str) : Prop := h ≠ [] ∧ h <+: p ∧ h.length < p.length

theorem names_nodot (k : Str) : ∀ x ∈ names k, '.' ∉ x := by
  intro x hx hd
  obtain ⟨l, h, _⟩ := C34_split k ['.'] (by simp)
  obtain ⟨_, h2, _⟩ := C34_collapse_split k ['.'] l (by simp) h
  have : names k = l := by unfold names; rw [h]
  rw [this] at hx
  obtain ⟨a, b, e⟩ := List.append_of_mem hd
  exact h2 x hx ⟨a, b, by simp [e]⟩

theorem inter_append (q r : List Str) (hq : q ≠ []) (hr : r ≠ []) :
    List.intercalate ['.'] (q ++ r) = List.intercalate ['.'] q ++ ['.'] ++ List.intercalate ['.'] r := by
  induction q with
  | nil => exact absurd rfl hq
  | cons x q ih =>
    cases q with
    | nil =>
      cases r with
      | nil => exact absurd rfl hr
      | cons y r => simp [List.intercalate]
    | cons y q =>
      have e1 : List.intercalate ['.'] (x :: y :: q) = x ++ ['.'] ++ List.intercalate ['.'] (y :: q) := by simp [List.intercalate]
      have e2 : List.intercalate ['.'] (x :: y :: q ++ r) = x ++ ['.'] ++ List.intercalate ['.'] (y :: q ++ r) := by simp [List.intercalate]
      rw [e1, e2, ih (by simp)]
      simp

theorem above_prefix (h : List Str) (k : Str) (ha : Above h (names k)) : List.intercalate ['.'] h ++ ['.'] <+: k := by
  obtain ⟨h0, ⟨r, hr⟩, hlen⟩ := ha
  have hr0 : r ≠ [] := by rintro rfl; rw [← hr] at hlen; simp at hlen
  refine ⟨List.intercalate ['.'] r, ?_⟩
  rw [← inter_append h r h0 hr0, hr]
  exact (split_names k).2.2

theorem prefix_above (h : List Str) (k : Str) (h0 : h ≠ []) (hd : ∀ x ∈ h, '.' ∉ x) (hp : List.intercalate ['.'] h ++ ['.'] <+: k) : Above h (names k) := by
  obtain ⟨r, hr⟩ := hp
  obtain ⟨_, n2, n3⟩ := split_names r
  have e : names k = h ++ names r := by
    rw [← hr, ← names_of (h ++ names r) (by simp [h0]) ?_, inter_append h _ h0 n2, n3]
    intro x hx
    rcases List.mem_append.1 hx with hx | hx
    · exact hd x hx
    · exact names_nodot r x hx
  rw [e]
  exact ⟨h0, List.prefix_append _ _, by rw [List.length_append]; have := List.length_pos_of_ne_nil n2; omega⟩

theorem between_prefix (s a b c : Str) (ha : s <+: a) (hc : s <+: c) (h1 : a < b) (h2 : b < c) : s <+: b := by
  induction s generalizing a b c with
  | nil => exact List.nil_prefix
  | cons x s ih =>
    obtain ⟨a', rfl⟩ := ha
    obtain ⟨c', rfl⟩ := hc
    cases b with
    | nil => exact absurd h1 (List.not_lt_nil _)
    | cons y b =>
      rw [List.cons_append, List.cons_lt_cons_iff] at h1 h2
      have hxy : x = y := by
        rcases h1 with h1 | ⟨h1, _⟩
        · rcases h2 with h2 | ⟨h2, _⟩
          · exact absurd (Char.lt_trans h1 h2) (Char.lt_irrefl _)
          · exact h2.symm
        · exact h1
      subst hxy
      have h1' : s ++ a' < b := by
        rcases h1 with h1 | ⟨_, h1⟩
        · exact absurd h1 (Char.lt_irrefl _)
        · exact h1
      have h2' : b < s ++ c' := by
        rcases h2 with h2 | ⟨_, h2⟩
        · exact absurd h2 (Char.lt_irrefl _)
        · exact h2
      exact List.cons_prefix_cons.2 ⟨rfl, ih _ _ _ (List.prefix_append _ _) (List.prefix_append _ _) h1' h2'⟩

theorem headings_spec (k0 : Str) (t : List Str) (ht : t = [] ∨ t = names k0) (vars : List (Str × Str))
    (hs : (k0 :: vars.map (·.1)).Pairwise (· < ·) ∨ (t = [] ∧ (vars.map (·.1)).Pairwise (· < ·))) :
    (headings t (outline t (vars.map fun v => (names v.1, v.2)))).Nodup ∧
    ∀ h ∈ headings t (outline t (vars.map fun v => (names v.1, v.2))), ¬ Above h t ∧ ∃ v ∈ vars, Above h (names v.1) := by
  induction vars generalizing t k0 with
  | nil => simp [outline, headings]
  | cons v vars ih =>
    obtain ⟨k, c⟩ := v
    have hnp := sorted_notPrefix t k0 ht ((k, c) :: vars) hs
    have hs' : (k :: vars.map (·.1)).Pairwise (· < ·) := by
      rcases hs with hs | ⟨_, hs⟩
      · exact (List.pairwise_cons.1 hs).2
      · exact hs
    obtain ⟨i1, i2⟩ := ih k (names k) (.inr rfl) (.inl hs')
    simp only [List.map_cons] at hnp ⊢
    obtain ⟨n1, n2, _⟩ := hnp
    rw [outline, headings_entries t (names k) c _ n1 n2]
    have hmem : ∀ h, h ∈ ((List.range' (common t (names k)) ((names k).length - 1 - common t (names k))).map fun j => (names k).take (j + 1)) →
        ∃ j, common t (names k) ≤ j ∧ j + 1 < (names k).length ∧ h = (names k).take (j + 1) := by
      intro h hh
      obtain ⟨j, hj, rfl⟩ := List.mem_map.1 hh
      rw [List.mem_range'_1] at hj
      exact ⟨j, hj.1, by omega, rfl⟩
    have habove : ∀ j, j + 1 < (names k).length → Above ((names k).take (j + 1)) (names k) := by
      intro j hj
      refine ⟨?_, List.take_prefix _ _, by rw [List.length_take]; omega⟩
      intro h0
      have := congrArg List.length h0
      rw [List.length_take] at this
      simp only [List.length_nil] at this
      omega
    refine ⟨List.nodup_append.2 ⟨?_, i1, ?_⟩, ?_⟩
    · refine List.Nodup.map_on ?_ (List.nodup_range' (step := 1))
      intro a ha b hb he
      rw [List.mem_range'_1] at ha hb
      have := congrArg List.length he
      rw [List.length_take, List.length_take] at this
      omega
    · rintro a ha b hb rfl
      obtain ⟨j, _, hj, rfl⟩ := hmem a ha
      exact (i2 _ hb).1 (habove j hj)
    · intro h hh
      rcases List.mem_append.1 hh with hh | hh
      · obtain ⟨j, h1, h2, rfl⟩ := hmem h hh
        refine ⟨?_, (k, c), by simp, habove j h2⟩
        rintro ⟨_, a2, _⟩
        have hlen : ((names k).take (j + 1)).length = j + 1 := by rw [List.length_take]; omega
        have hle := a2.length_le
        rw [hlen] at hle
        have he : t.take (j + 1) = (names k).take (j + 1) := by
          have := List.prefix_iff_eq_take.1 a2
          rw [hlen] at this
          exact this.symm
        have := (common_spec t (names k)).2.2.2 (j + 1) hle (by omega) he
        omega
      · obtain ⟨j1, v, hv, j2⟩ := i2 h hh
        refine ⟨?_, v, by simp [hv], j2⟩
        intro hab
        rcases ht with rfl | rfl
        · exact hab.1 (List.prefix_nil.1 hab.2.1)
        · rcases hs with hs | ⟨h0, _⟩
          · refine j1 (prefix_above h k hab.1 (fun x hx => names_nodot k0 x (hab.2.1.subset hx)) ?_)
            have hk0 : k0 < k := (List.pairwise_cons.1 hs).1 k (by simp)
            have hkv : k < v.1 := (List.pairwise_cons.1 hs').1 v.1 (List.mem_map.2 ⟨v, hv, rfl⟩)
            exact between_prefix _ k0 k v.1 (above_prefix h k0 hab) (above_prefix h v.1 j2) hk0 hkv
          · exact (split_names k0).2.1 h0

/-- **C238** In the tree of `C238_tree_partial`, each heading is written once, and it is above a variable. -/
theorem C238_once (cs : List (Str × Str)) :
    (headings [] (outline [] ((addAll cs).map fun v => (names v.1, v.2)))).Nodup ∧
    ∀ h ∈ headings [] (outline [] ((addAll cs).map fun v => (names v.1, v.2))), ∃ v ∈ addAll cs, Above h (names v.1) := by
  obtain ⟨h1, h2⟩ := headings_spec [] [] (.inl rfl) (addAll cs) (.inr ⟨rfl, (C238_first cs).1⟩)
  exact ⟨h1, fun h hh => (h2 h hh).2⟩

/-- two variables of a structure, given twice and out of order -/
def exVars : List (Str × Str) := [("pos.dec".toList, "declination".toList), ("id".toList, "number".toList), ("pos.ra".toList, "right ascension".toList), ("id".toList, "other".toList)]

theorem exVars_add : addAll exVars = [("id".toList, "number".toList), ("pos.dec".toList, "declination".toList), ("pos.ra".toList, "right ascension".toList)] := by
  decide +kernel

theorem exVars_outline : (outline [] ((addAll exVars).map fun v => (names v.1, v.2))).map Entry.text =
    ["id: number".toList, "pos".toList, "| dec: declination".toList, "| ra: right ascension".toList] := by
  rw [exVars_add]
  have e1 : names "id".toList = ["id".toList] := names_of ["id".toList] (by decide) (by decide)
  have e2 : names "pos.dec".toList = ["pos".toList, "dec".toList] := names_of ["pos".toList, "dec".toList] (by decide) (by decide)
  have e3 : names "pos.ra".toList = ["pos".toList, "ra".toList] := names_of ["pos".toList, "ra".toList] (by decide) (by decide)
  simp only [List.map_cons, List.map_nil, e1, e2, e3]
  decide +kernel

example : ∃ es : List Entry, buildComments 80 ["Catalogue".toList] (addAll exVars) = .ok (["Catalogue".toList] ++ es.map Entry.text) ∧
    es = outline [] ((addAll exVars).map fun v => (names v.1, v.2)) ∧
    readTree [] es = (addAll exVars).map fun v => (names v.1, v.2) := by
  refine C238_tree_partial 80 ["Catalogue".toList] exVars (by decide) (by decide +kernel) fun e he => ?_
  have := List.mem_map_of_mem (f := Entry.text) he
  rw [exVars_outline] at this
  revert this
  generalize e.text = t
  revert t
  decide +kernel

/-- **C238 is false** for names with blanks: two names that only differ by blanks are different variables, and the second one stops the program. -/
theorem C238_blank_refuted : buildComments 80 [] (addAll [("a".toList, "first".toList), ("a ".toList, "second".toList)]) = .abort := by
  have h : addAll [("a".toList, "first".toList), ("a ".toList, "second".toList)] = [("a".toList, "first".toList), ("a ".toList, "second".toList)] := by decide +kernel
  have e1 : split "a".toList ['.'] = .ok ["a".toList] := C34_split_collapse ["a".toList] '.' (by decide) (by decide)
  have e2 : split "a ".toList ['.'] = .ok ["a ".toList] := C34_split_collapse ["a ".toList] '.' (by decide) (by decide)
  have t1 : ["a".toList].mapM (fun s => trim s blanks) = .ok ["a".toList] := by decide +kernel
  have t2 : ["a ".toList].mapM (fun s => trim s blanks) = .ok ["a".toList] := by decide +kernel
  have v1 : varLines 80 [] ["a".toList] "first".toList = .ok ["a: first".toList] :=
    varLines_spec 80 [] ["a".toList] "first".toList (by decide) (by decide) (by decide +kernel)
  have v2 : varLines 80 ["a".toList] ["a".toList] "second".toList = .abort := by rfl
  rw [h]
  unfold buildComments
  rw [show ([] : List Str).mapM (fun s => wrap s 80 [] false) = .ok [] from rfl, Res.ok_bind, varLoop, e1, Res.ok_bind, t1, Res.ok_bind, v1, Res.ok_bind, varLoop,
    e2, Res.ok_bind, t2, Res.ok_bind, v2]
  rfl

/-- the indentation continues in the same way -/
theorem tab_add (n d : Nat) (hd : 0 < d) : ∃ c r, tab (n + d) = tab n ++ c :: r ∧ c = if n % 2 = 0 then '|' else ':' := by
  induction d with
  | zero => omega
  | succ d ih =>
    rcases Nat.eq_zero_or_pos d with rfl | h
    · refine ⟨if n % 2 = 0 then '|' else ':', [' '], ?_, rfl⟩
      show tab n ++ (if n % 2 = 0 then ['|', ' '] else [':', ' ']) = _
      split <;> rfl
    · obtain ⟨c, r, h1, h2⟩ := ih h
      refine ⟨c, r ++ (if (n + d) % 2 = 0 then ['|', ' '] else [':', ' ']), ?_, h2⟩
      show tab (n + d) ++ _ = _
      rw [h1]
      simp

/-- **C238**: the depth of a line can be seen: two lines that look the same have the same depth, if the names do not begin like an indentation. -/
theorem C238_depth (e e' : Entry) (h : e.text = e'.text) (hn : e.name ≠ [] ∧ e'.name ≠ []) (hc : ∀ c, e.name.head? = some c ∨ e'.name.head? = some c → c ≠ '|' ∧ c ≠ ':') : e.depth = e'.depth := by
  have key : ∀ a b : Entry, a.text = b.text → a.name ≠ [] → (∀ c, a.name.head? = some c → c ≠ '|' ∧ c ≠ ':') → ¬ a.depth < b.depth := by
    intro a b h hn hc hlt
    obtain ⟨c, r, h1, h2⟩ := tab_add a.depth (b.depth - a.depth) (by omega)
    rw [show a.depth + (b.depth - a.depth) = b.depth by omega] at h1
    unfold Entry.text at h
    rw [h1, List.append_assoc, List.append_assoc, List.append_assoc] at h
    have h := List.append_cancel_left h
    cases hname : a.name with
    | nil => exact hn hname
    | cons x t =>
      rw [hname] at h
      simp only [List.cons_append, List.cons.injEq] at h
      have := hc x (by rw [hname]; rfl)
      rw [h.1, h2] at this
      split at this
      · exact this.1 rfl
      · exact this.2 rfl
  have h1 := key e e' h hn.1 fun c h => hc c (.inl h)
  have h2 := key e' e h.symm hn.2 fun c h => hc c (.inr h)
  omega

example : (Entry.text ⟨2, "ra".toList, some "right ascension".toList⟩) = "| : ra: right ascension".toList := by decide +kernel

end Verif.CatComments
