import Verif.Astro.FilterDb
import Verif.Str.SplitProps
import Verif.Str.TrimProps
import Verif.Io.AsciiProps
import Verif.Math.InterpProps
import Mathlib.Tactic.Linarith
import Mathlib.Tactic.Ring
import Mathlib.Tactic.FieldSimp
import Mathlib.Tactic.Positivity
/-!
# C151: libraries of filters
-/
namespace Verif.FilterDb
open Verif Verif.Str Verif.Io Verif.Math

/-! ### Specification -/

/-- a line, without the spaces around it, is `a=b` and not a comment -/
def Defines (line a b : Str) : Prop :=
  IsTrim blanks line (a ++ '=' :: b) ∧ '=' ∉ a ∧ '=' ∉ b ∧ (a ++ '=' :: b).head? ≠ some '#'

/-- the first line that defines `k` with a valid value -/
def FirstDef {β : Type} (conv : Str → Option β) (lines : List Str) (k : Str) (v : β) : Prop :=
  ∃ pre line post b, lines = pre ++ line :: post ∧ Defines line k b ∧ conv b = some v ∧ ∀ l ∈ pre, ∀ b', Defines l k b' → conv b' = none

/-- keys in strictly increasing order -/
def Sorted {β : Type} (m : Map β) : Prop := m.Pairwise fun a b => a.1 < b.1

/-- the area under a broken line -/
def area {K : Type} [Field K] : List K → List K → K
  | x0 :: x1 :: xs, y0 :: y1 :: ys => (y0 + y1) / 2 * (x1 - x0) + area (x1 :: xs) (y1 :: ys)
  | _, _ => 0

/-! ### Lemmas -/

theorem parseLine_spec (line : Str) : ∃ o, parseLine line = .ok o ∧ ∀ a b, o = some (a, b) ↔ Defines line a b := by
  obtain ⟨m, h1, h2⟩ := C36_trim line blanks
  unfold parseLine
  rw [h1, Res.ok_bind]
  by_cases hh : m.head? = some '#'
  · rw [if_pos hh]
    refine ⟨none, rfl, fun a b => ⟨fun h => (Option.some_ne_none _ h.symm).elim, fun h => ?_⟩⟩
    exact absurd hh (isTrim_unique h2 h.1 ▸ h.2.2.2)
  · rw [if_neg hh]
    obtain ⟨l, g1, -⟩ := C34_split m ['='] (by simp)
    obtain ⟨k1, k2, -⟩ := C34_collapse_split m ['='] l (by simp) g1
    rw [g1, Res.ok_bind]
    have back : ∀ a b, Defines line a b → l = [a, b] := by
      intro a b h
      have e := isTrim_unique h2 h.1
      have := C34_split_collapse [a, b] '=' (by simp) (by simp [h.2.1, h.2.2.1])
      rw [show collapseSep [a, b] ['='] = m by rw [e, collapseSep_eq]; simp [List.intercalate]] at this
      rw [this, Res.ok.injEq] at g1
      exact g1.symm
    by_cases hl : ∃ a b, l = [a, b]
    · obtain ⟨a, b, rfl⟩ := hl
      refine ⟨some (a, b), rfl, fun a' b' => ⟨fun h => ?_, fun h => ?_⟩⟩
      · obtain ⟨rfl, rfl⟩ := by simpa using h
        rw [collapseSep_eq] at k1
        have e : a ++ '=' :: b = m := by rw [← k1]; simp [List.intercalate]
        have n : ∀ x ∈ [a, b], '=' ∉ x := fun x hx hc => by
          obtain ⟨s, t, e⟩ := List.append_of_mem hc
          exact k2 x hx ⟨s, t, by rw [e]; simp⟩
        exact ⟨e ▸ h2, n a (by simp), n b (by simp), e ▸ hh⟩
      · have := back a' b' h
        simp only [List.cons.injEq, and_true] at this
        rw [this.1, this.2]
    · refine ⟨none, ?_, fun a b => ⟨fun h => (Option.some_ne_none _ h.symm).elim, fun h => absurd ⟨a, b, back a b h⟩ hl⟩⟩
      match l, hl with
      | [], _ => rfl
      | [_], _ => rfl
      | [a, b], hl => exact absurd ⟨a, b, rfl⟩ hl
      | _ :: _ :: _ :: _, _ => rfl

variable {β : Type}

theorem find_cons (k : Str) (e : Str × β) (m : Map β) : find k (e :: m) = if e.1 = k then some e.2 else find k m := by
  unfold find
  rw [List.find?_cons]
  by_cases h : e.1 = k <;> simp [h]

theorem find_none {k : Str} {m : Map β} (h : ∀ e ∈ m, e.1 ≠ k) : find k m = none := by
  unfold find
  rw [List.find?_eq_none.2 (by simpa using h)]; rfl

theorem insert_mem {k : Str} {v : β} {m : Map β} {e : Str × β} (h : e ∈ insert k v m) : e = (k, v) ∨ e ∈ m := by
  induction m with
  | nil => simpa [insert] using h
  | cons a m ih =>
    unfold insert at h
    split at h
    · exact Or.inr h
    · split at h
      · simpa using h
      · rcases List.mem_cons.1 h with rfl | h
        · simp
        · rcases ih h with h | h
          · exact Or.inl h
          · exact Or.inr (by simp [h])

theorem insert_sorted {k : Str} {v : β} {m : Map β} (h : Sorted m) : Sorted (insert k v m) := by
  induction m with
  | nil => simp [insert, Sorted]
  | cons a m ih =>
    have h' := List.pairwise_cons.1 h
    unfold insert
    split
    · exact h
    · split
      · rename_i hlt
        refine List.pairwise_cons.2 ⟨fun e he => ?_, h⟩
        rcases List.mem_cons.1 he with rfl | he
        · exact hlt
        · exact hlt.trans (h'.1 e he)
      · rename_i hne hnl
        refine List.pairwise_cons.2 ⟨fun e he => ?_, ih h'.2⟩
        rcases insert_mem he with rfl | he
        · exact lt_of_le_of_ne (not_lt.1 hnl) (Ne.symm hne)
        · exact h'.1 e he

theorem find_insert (k k' : Str) (v : β) (m : Map β) (h : Sorted m) : find k' (insert k v m) = if k' = k then some ((find k m).getD v) else find k' m := by
  induction m with
  | nil =>
    rw [insert, find_cons]
    by_cases e : k' = k
    · rw [if_pos e.symm, if_pos e]; rfl
    · rw [if_neg (Ne.symm e), if_neg e]
  | cons a m ih =>
    have h' := List.pairwise_cons.1 h
    unfold insert
    split
    · rename_i e
      rw [find_cons, find_cons, if_pos e.symm]
      by_cases e' : k' = k
      · rw [if_pos (e'.trans e).symm, if_pos e']; rfl
      · rw [if_neg e']
    · rename_i hne
      split
      · rename_i hlt
        have : find k (a :: m) = none := find_none fun e he => by
          rcases List.mem_cons.1 he with rfl | he
          · exact Ne.symm hne
          · exact (hlt.trans (h'.1 e he)).ne'
        rw [find_cons, this]
        by_cases e' : k' = k
        · rw [if_pos e'.symm, if_pos e']; rfl
        · rw [if_neg (Ne.symm e'), if_neg e']
      · rw [find_cons, ih h'.2, find_cons, find_cons, if_neg (Ne.symm hne)]
        by_cases e' : k' = k
        · rw [if_pos e', if_neg (by rw [e']; exact Ne.symm hne), if_pos e']
        · rw [if_neg e', if_neg e']

theorem mapLoop_spec (conv : Str → Option β) (lines : List Str) (db : Map β) (hs : Sorted db) :
    ∃ db', mapLoop conv lines db = .ok db' ∧ Sorted db' ∧ ∀ k v, find k db' = some v ↔ find k db = some v ∨ (find k db = none ∧ FirstDef conv lines k v) := by
  induction lines generalizing db with
  | nil => exact ⟨db, rfl, hs, fun k v => ⟨Or.inl, fun h => h.elim id fun ⟨_, pre, _, _, _, e, _⟩ => by simp at e⟩⟩
  | cons line lines ih =>
    obtain ⟨o, h1, h2⟩ := parseLine_spec line
    -- a line that adds nothing
    have skip : (∀ k b, Defines line k b → conv b = none) → ∀ k v, FirstDef conv (line :: lines) k v ↔ FirstDef conv lines k v := by
      intro hn k v
      constructor
      · rintro ⟨pre, l, post, b, e, hd, hc, hp⟩
        cases pre with
        | nil =>
          simp only [List.nil_append, List.cons.injEq] at e
          rw [← e.1] at hd
          rw [hn k b hd] at hc; cases hc
        | cons p pre =>
          simp only [List.cons_append, List.cons.injEq] at e
          exact ⟨pre, l, post, b, e.2, hd, hc, fun l hl => hp l (by simp [hl])⟩
      · rintro ⟨pre, l, post, b, e, hd, hc, hp⟩
        refine ⟨line :: pre, l, post, b, by rw [e]; rfl, hd, hc, fun l hl => ?_⟩
        rcases List.mem_cons.1 hl with rfl | hl
        · exact fun b' hb => hn k b' hb
        · exact hp l hl
    rw [mapLoop, h1, Res.ok_bind]
    match o, h2 with
    | none, h2 =>
      obtain ⟨db', e1, e2, e3⟩ := ih db hs
      have hs := skip fun k b hd => absurd ((h2 k b).2 hd) (by simp)
      exact ⟨db', e1, e2, fun k v => by rw [e3, hs]⟩
    | some (a, b), h2 =>
      have hd : Defines line a b := (h2 a b).1 rfl
      have uniq : ∀ k c, Defines line k c → k = a ∧ c = b := fun k c h => by simpa [eq_comm] using (h2 k c).2 h
      dsimp only
      match hc : conv b with
      | none =>
        obtain ⟨db', e1, e2, e3⟩ := ih db hs
        have hs := skip fun k c hd => by rw [(uniq k c hd).2, hc]
        exact ⟨db', e1, e2, fun k v => by rw [e3, hs]⟩
      | some w =>
        obtain ⟨db', e1, e2, e3⟩ := ih (insert a w db) (insert_sorted hs)
        refine ⟨db', e1, e2, fun k v => ?_⟩
        rw [e3, find_insert a k w db hs]
        by_cases hk : k = a
        · subst hk
          rw [if_pos rfl]
          cases hf : find k db with
          | some z => simp
          | none =>
            simp only [Option.getD_none, Option.some.injEq, reduceCtorEq, false_and, or_false, true_and, false_or]
            constructor
            · rintro rfl
              exact ⟨[], line, lines, b, rfl, hd, hc, by simp⟩
            · rintro ⟨pre, l, post, c, e, hd', hc', hp⟩
              cases pre with
              | nil =>
                simp only [List.nil_append, List.cons.injEq] at e
                rw [← e.1] at hd'
                rw [(uniq _ c hd').2, hc, Option.some.injEq] at hc'
                exact hc'
              | cons p pre =>
                simp only [List.cons_append, List.cons.injEq] at e
                have := hp p (by simp) b (e.1 ▸ hd)
                rw [hc] at this; cases this
        · rw [if_neg hk]
          have : FirstDef conv (line :: lines) k v ↔ FirstDef conv lines k v := by
            constructor
            · rintro ⟨pre, l, post, c, e, hd', hc', hp⟩
              cases pre with
              | nil =>
                simp only [List.nil_append, List.cons.injEq] at e
                rw [← e.1] at hd'
                exact absurd (uniq _ c hd').1 hk
              | cons p pre =>
                simp only [List.cons_append, List.cons.injEq] at e
                exact ⟨pre, l, post, c, e.2, hd', hc', fun l hl => hp l (by simp [hl])⟩
            · rintro ⟨pre, l, post, c, e, hd', hc', hp⟩
              refine ⟨line :: pre, l, post, c, by rw [e]; rfl, hd', hc', fun l hl => ?_⟩
              rcases List.mem_cons.1 hl with rfl | hl
              · exact fun b' hb => absurd (uniq _ b' hb).1 hk
              · exact hp l hl
          rw [this]

theorem dbLoop_eq (dir : Str) (lines : List Str) (db : Map Str) : dbLoop dir lines db = mapLoop (fun b => some (dir ++ b)) lines db := by
  induction lines generalizing db with
  | nil => rfl
  | cons l lines ih =>
    rw [dbLoop, mapLoop]
    congr 1
    funext o
    match o with
    | none => exact ih db
    | some (a, b) => exact ih _

/-- the candidates so far -/
theorem candLoop_spec (str : Str) (l pre : Map β) (best : Option Nat) (c : List Str)
    (hn : best = none ↔ pre = []) (hm : ∀ b, best = some b → (∀ e ∈ pre, b ≤ distance str e.1) ∧ ∃ e ∈ pre, distance str e.1 = b)
    (hc : ∀ x, x ∈ c ↔ ∃ e ∈ pre, e.1 = x ∧ best = some (distance str x)) :
    ∀ x, x ∈ candLoop str l best c ↔ ∃ e ∈ pre ++ l, e.1 = x ∧ ∀ e' ∈ pre ++ l, distance str x ≤ distance str e'.1 := by
  induction l generalizing pre best c with
  | nil =>
    intro x
    rw [candLoop, hc, List.append_nil]
    constructor
    · rintro ⟨e, he, h1, h2⟩
      exact ⟨e, he, h1, fun e' he' => (hm _ h2).1 e' he'⟩
    · rintro ⟨e, he, h1, h2⟩
      refine ⟨e, he, h1, ?_⟩
      cases hb : best with
      | none => rw [hn.1 hb] at he; simp at he
      | some b =>
        obtain ⟨g1, e', he', g2⟩ := hm b hb
        have a1 := g1 e he
        have a2 := h2 e' he'
        rw [h1] at a1
        rw [Option.some.injEq]; omega
  | cons e l ih =>
    intro x
    have app : pre ++ e :: l = (pre ++ [e]) ++ l := by simp
    rw [app]
    cases hb : best with
    | none =>
      rw [candLoop]
      have hp := hn.1 hb
      subst hp
      exact ih ([] ++ [e]) _ _ (by simp) (by simp) (by intro x; simp only [List.mem_singleton, List.nil_append, exists_eq_left, Option.some.injEq]; constructor <;> simp +contextual [eq_comm]) x
    | some b =>
      obtain ⟨g1, e', he', g2⟩ := hm b hb
      rw [candLoop]
      split
      · rename_i hlt
        refine ih (pre ++ [e]) _ _ (by simp) ?_ ?_ x
        · intro b' hb'
          rw [Option.some.injEq] at hb'
          subst hb'
          refine ⟨fun e2 h2 => ?_, e, by simp, rfl⟩
          rcases List.mem_append.1 h2 with h2 | h2
          · exact (hlt.trans_le (g1 e2 h2)).le
          · rw [List.mem_singleton.1 h2]
        · intro x
          simp only [List.mem_singleton, List.mem_append, Option.some.injEq]
          constructor
          · rintro rfl; exact ⟨e, by simp, rfl, rfl⟩
          · rintro ⟨e2, h2 | rfl, rfl, h3⟩
            · have := g1 e2 h2; omega
            · rfl
      · rename_i hnl
        split
        · rename_i heq
          refine ih (pre ++ [e]) _ _ (by simp) ?_ ?_ x
          · intro b' hb'
            rw [Option.some.injEq] at hb'
            subst hb'
            refine ⟨fun e2 h2 => ?_, e', by simp [he'], g2⟩
            rcases List.mem_append.1 h2 with h2 | h2
            · exact g1 e2 h2
            · rw [List.mem_singleton.1 h2]; omega
          · intro x
            rw [List.mem_append, hc, hb]
            simp only [List.mem_singleton, List.mem_append, Option.some.injEq]
            constructor
            · rintro (⟨e2, h2, h3, h4⟩ | rfl)
              · exact ⟨e2, Or.inl h2, h3, h4⟩
              · exact ⟨e, Or.inr rfl, rfl, heq.symm⟩
            · rintro ⟨e2, h2 | rfl, h3, h4⟩
              · exact Or.inl ⟨e2, h2, h3, h4⟩
              · exact Or.inr h3.symm
        · rename_i hne
          refine ih (pre ++ [e]) _ _ (by simp) ?_ ?_ x
          · intro b' hb'
            rw [Option.some.injEq] at hb'
            subst hb'
            refine ⟨fun e2 h2 => ?_, e', by simp [he'], g2⟩
            rcases List.mem_append.1 h2 with h2 | h2
            · exact g1 e2 h2
            · rw [List.mem_singleton.1 h2]; omega
          · intro x
            rw [hc, hb]
            simp only [List.mem_singleton, List.mem_append, Option.some.injEq]
            constructor
            · rintro ⟨e2, h2, h3, h4⟩
              exact ⟨e2, Or.inl h2, h3, h4⟩
            · rintro ⟨e2, h2 | rfl, h3, h4⟩
              · exact ⟨e2, h2, h3, h4⟩
              · rw [← h3] at h4; omega

theorem find_some_iff {k : Str} {v : β} {m : Map β} (h : Sorted m) : find k m = some v ↔ (k, v) ∈ m := by
  induction m with
  | nil => simp [find]
  | cons e m ih =>
    have h' := List.pairwise_cons.1 h
    rw [find_cons]
    split
    · rename_i he
      subst he
      simp only [Option.some.injEq, List.mem_cons]
      constructor
      · rintro rfl; exact Or.inl rfl
      · rintro (h | h)
        · rw [← h]
        · exact absurd (h'.1 _ h) (lt_irrefl _)
    · rename_i he
      rw [ih h'.2, List.mem_cons]
      constructor
      · exact Or.inr
      · rintro (h | h)
        · rw [← h] at he; simp at he
        · exact h

section
variable {K : Type} [Field K] [LinearOrder K]

theorem fold_area (m : Nat) : ∀ (x y : List K) (r : K), x.length = y.length → x.length = m + 1 →
    ((List.range m).map (· + 1)).foldlM (fun r i => do let t ← trapezoid x y i; pure (r + t)) r = Res.ok (r + area x y) := by
  induction m with
  | zero =>
    intro x y r h1 h2
    match x, y with
    | [a], [b] => simp [area]
    | [], _ => simp at h2
    | _ :: _ :: _, _ => simp at h2
    | [_], [] => simp at h1
    | [_], _ :: _ :: _ => simp at h1
  | succ m ih =>
    intro x y r h1 h2
    match x, y with
    | x0 :: x1 :: xs, y0 :: y1 :: ys =>
      rw [List.range_succ_eq_map, List.map_cons, List.map_map, List.foldlM_cons]
      have t0 : trapezoid (x0 :: x1 :: xs) (y0 :: y1 :: ys) (0 + 1) = .ok ((y1 + y0) / 2 * (x1 - x0)) := rfl
      rw [t0, Res.ok_bind, Res.pure_def, Res.ok_bind]
      have hs : ∀ (l : List Nat) (r : K), (l.map ((· + 1) ∘ Nat.succ)).foldlM (fun r i => do let t ← trapezoid (x0 :: x1 :: xs) (y0 :: y1 :: ys) i; pure (r + t)) r =
          (l.map (· + 1)).foldlM (fun r i => do let t ← trapezoid (x1 :: xs) (y1 :: ys) i; pure (r + t)) r := by
        intro l
        induction l with
        | nil => intro r; rfl
        | cons i l ihl =>
          intro r
          simp only [List.map_cons, List.foldlM_cons]
          have : trapezoid (x0 :: x1 :: xs) (y0 :: y1 :: ys) (((· + 1) ∘ Nat.succ) i) = trapezoid (x1 :: xs) (y1 :: ys) (i + 1) := by
            simp only [trapezoid, Function.comp, Nat.succ_eq_add_one, Nat.add_sub_cancel, Res.rd, List.getElem?_cons_succ]
          rw [this]
          congr 1
          funext t
          exact ihl _
      rw [hs, ih (x1 :: xs) (y1 :: ys) _ (by simpa using h1) (by simpa using h2), area]
      congr 1
      ring
    | [], _ => simp at h2
    | [_], _ => simp at h2
    | _ :: _ :: _, [] => simp at h1
    | _ :: _ :: _, [_] => simp at h1

theorem integrate_area (x y : List K) (h1 : x.length = y.length) (h2 : x ≠ []) : integrate x y = .ok (area x y) := by
  unfold integrate
  have h0 : 0 < x.length := List.length_pos_iff.2 h2
  rw [Res.check_pos h1, Res.ok_bind, rangeFrom1_pos _ h0, fold_area (x.length - 1) x y 0 h1 (by omega), zero_add]

theorem rangeFilter_eq [IsStrictOrderedRing K] (a b : K) : rangeFilter a b = .ok ⟨(a + b) / 2, [a / 2, 99 / 100 * a, a, b, 101 / 100 * b, 2 * b],
    [0, 0, 1 / (b - a + (a + b) / 200), 1 / (b - a + (a + b) / 200), 0, 0]⟩ := by
  unfold rangeFilter
  dsimp only
  rw [integrate_area _ _ (by simp) (by simp), Res.ok_bind]
  have e : area [a * (1 / 2), a * (99 / 100), a, b, b * (101 / 100), b * 2] [0, 0, 1, 1, 0, 0] = b - a + (a + b) / 200 := by
    simp only [area]; ring
  rw [e]
  congr 2
  · ring
  · simp only [List.cons.injEq, and_true]
    exact ⟨by ring, by ring, trivial, trivial, by ring, by ring⟩
  · simp

theorem getFilter_plain (num : Str → Option K) (rd : Str → Res (List K × List K)) (db : Map Str) (str : Str) (h : ':' ∉ str) :
    getFilter num rd db str = match find str db with
      | none => .ok (.unknown (candLoop str db none []))
      | some name => ofFile rd name := by
  have hs := C34_split_collapse [str] ':' (by simp) (by simpa using h)
  rw [show collapseSep [str] [':'] = str by rw [collapseSep_eq]; simp [List.intercalate]] at hs
  unfold getFilter
  rw [hs, Res.ok_bind, if_pos (by simp)]
  cases find str db <;> rfl

end

theorem getDirectory_ok (p : Str) : ∃ d, getDirectory p = .ok d := by
  unfold getDirectory
  split
  · exact ⟨_, rfl⟩
  · split
    · split
      · exact ⟨_, rfl⟩
      · split
        · exact ⟨_, rfl⟩
        · exact ⟨_, by simp only [substr]; exact if_neg (Nat.not_lt_zero _)⟩
    · exact ⟨_, by simp only [substr]; exact if_neg (Nat.not_lt_zero _)⟩

/-! ### C151 -/

/-- The library: an element for each name that a line `name=value` defines, with the directory of the library before the value. The first line of a name counts.
Comments, and lines without or with several `=`, are left out. A file that cannot be opened gives an empty library. -/
theorem C151_db (filename content : Str) (lines : List Str) (hl : IsSplit ['\n'] content lines) :
    ∃ dir db, getDirectory filename = .ok dir ∧ readDb filename (some content) = .ok db ∧ Sorted db ∧
      (∀ k v, (k, v) ∈ db ↔ FirstDef (fun b => some (dir ++ b)) lines k v) ∧ readDb filename none = .ok [] := by
  obtain ⟨dir, hd⟩ := getDirectory_ok filename
  have e := isSplit_unique (by simp) hl (by simpa using fileLines_split [] content (by simp))
  obtain ⟨db, h1, h2, h3⟩ := mapLoop_spec (fun b => some (dir ++ b)) lines [] List.Pairwise.nil
  refine ⟨dir, db, hd, ?_, h2, fun k v => ?_, rfl⟩
  · unfold readDb
    dsimp only
    rw [hd, Res.ok_bind, dbLoop_eq, ← e, h1]
  · rw [← find_some_iff h2, h3]; simp [find]

/-- The map of identifiers likewise; lines whose value is not a number are left out. -/
theorem C151_map (num : Str → Option Nat) (content : Str) (lines : List Str) (hl : IsSplit ['\n'] content lines) :
    ∃ db, readMap num (some content) = .ok db ∧ Sorted db ∧ (∀ k v, (k, v) ∈ db ↔ FirstDef num lines k v) ∧ readMap num none = .ok [] := by
  have e := isSplit_unique (by simp) hl (by simpa using fileLines_split [] content (by simp))
  obtain ⟨db, h1, h2, h3⟩ := mapLoop_spec num lines [] List.Pairwise.nil
  refine ⟨db, ?_, h2, fun k v => ?_, rfl⟩
  · unfold readMap
    dsimp only
    rw [← e, h1]
  · rw [← find_some_iff h2, h3]; simp [find]

/-- The spaces around `=` belong to the name and to the value: `a = b.dat` defines the filter `a ` (with a space), and not `a`. -/
theorem C151_spaces_refuted : readDb "db/filters".toList (some "# comment\na = b.dat\nc=d=e\nf=g.fits  \nf=h".toList) =
      .ok [("a ".toList, "db/ b.dat".toList), ("f".toList, "db/g.fits".toList)] ∧
    ∀ (rd : Str → Res (List ℚ × List ℚ)), getFilter (fun _ => none) rd [("a ".toList, "db/ b.dat".toList), ("f".toList, "db/g.fits".toList)] "a".toList = .ok (.unknown ["a ".toList, "f".toList]) := by
  refine ⟨by decide +kernel, fun rd => ?_⟩
  rw [getFilter_plain _ _ _ _ (by decide)]
  have : find "a".toList [("a ".toList, "db/ b.dat".toList), ("f".toList, "db/g.fits".toList)] = none := by decide +kernel
  rw [this]
  have : candLoop "a".toList [("a ".toList, "db/ b.dat".toList), ("f".toList, "db/g.fits".toList)] none [] = ["a ".toList, "f".toList] := by decide +kernel
  dsimp only
  rw [this]

section
variable {K : Type} [Field K] [LinearOrder K]

/-- A filter of the library: what its file contains, and the integral of the wavelength times the response. -/
theorem C151_known (num : Str → Option K) (rd : Str → Res (List K × List K)) (db : Map Str) (hs : Sorted db) (str name : Str) (hc : ':' ∉ str) (h : (str, name) ∈ db)
    (lam res : List K) (hr : rd name = .ok (lam, res)) (h1 : res.length = lam.length) (h0 : lam ≠ []) :
    getFilter num rd db str = .ok (.found ⟨area lam (List.zipWith (· * ·) res lam), lam, res⟩) := by
  rw [getFilter_plain _ _ _ _ hc, (find_some_iff hs).2 h]
  dsimp only [ofFile]
  rw [hr, Res.ok_bind, Res.check_pos h1, Res.ok_bind, integrate_area _ _ (by simp [h1]) h0, Res.ok_bind]

/-- A name which is not in the library: the filter is refused, and the names suggested are the ones that are the least different from it. -/
theorem C151_unknown (num : Str → Option K) (rd : Str → Res (List K × List K)) (db : Map Str) (hs : Sorted db) (str : Str) (hc : ':' ∉ str) (h : ∀ name, (str, name) ∉ db) :
    ∃ names, getFilter num rd db str = .ok (.unknown names) ∧
      ∀ x, x ∈ names ↔ ∃ v, (x, v) ∈ db ∧ ∀ y w, (y, w) ∈ db → distance str x ≤ distance str y := by
  refine ⟨candLoop str db none [], ?_, fun x => ?_⟩
  · rw [getFilter_plain _ _ _ _ hc]
    have : find str db = none := by
      cases hf : find str db with
      | none => rfl
      | some v => exact absurd ((find_some_iff hs).1 hf) (h v)
    rw [this]
  · rw [candLoop_spec str db [] none [] (by simp) (by simp) (by simp) x, List.nil_append]
    constructor
    · rintro ⟨e, he, rfl, h2⟩
      exact ⟨e.2, he, fun y w hy => h2 (y, w) hy⟩
    · rintro ⟨v, h1, h2⟩
      exact ⟨(x, v), h1, rfl, fun e' he' => h2 e'.1 e'.2 he'⟩

/-- `name:file:path` reads the file of this path. -/
theorem C151_file (num : Str → Option K) (rd : Str → Res (List K × List K)) (db : Map Str) (name path : Str) (hn : ':' ∉ name) (hp : ':' ∉ path)
    (lam res : List K) (hr : rd path = .ok (lam, res)) (h1 : res.length = lam.length) (h0 : lam ≠ []) :
    getFilter num rd db (name ++ ':' :: ("file".toList ++ ':' :: path)) = .ok (.found ⟨area lam (List.zipWith (· * ·) res lam), lam, res⟩) := by
  have hs := C34_split_collapse [name, "file".toList, path] ':' (by simp) (by simp [hn, hp])
  rw [show collapseSep [name, "file".toList, path] [':'] = name ++ ':' :: ("file".toList ++ ':' :: path) by rw [collapseSep_eq]; simp [List.intercalate]] at hs
  unfold getFilter
  rw [hs, Res.ok_bind, if_neg (by simp)]
  simp only [Res.rd, List.getElem?_cons_succ, List.getElem?_cons_zero, Res.ok_bind]
  rw [if_neg (by decide), if_pos trivial, if_neg (by simp)]
  dsimp only [ofFile]
  rw [hr, Res.ok_bind, Res.check_pos h1, Res.ok_bind, integrate_area _ _ (by simp [h1]) h0, Res.ok_bind]

/-- `name:range:min:max` with 0 < min < max is a filter which is constant between the two wavelengths; the wavelengths are increasing, its area is one and its wavelength is
the mean of the two. -/
theorem C151_range [IsStrictOrderedRing K] (num : Str → Option K) (rd : Str → Res (List K × List K)) (db : Map Str) (name a b : Str) (hn : ':' ∉ name) (ha : ':' ∉ a) (hb : ':' ∉ b)
    (lmin lmax : K) (h1 : num a = some lmin) (h2 : num b = some lmax) (h3 : 0 < lmin) (h4 : lmin < lmax) :
    ∃ f, getFilter num rd db (name ++ ':' :: ("range".toList ++ ':' :: (a ++ ':' :: b))) = .ok (.found f) ∧
      f.lam = [lmin / 2, 99 / 100 * lmin, lmin, lmax, 101 / 100 * lmax, 2 * lmax] ∧ f.lam.Pairwise (· < ·) ∧
      (∃ c, 0 < c ∧ f.res = [0, 0, c, c, 0, 0]) ∧ area f.lam f.res = 1 ∧ f.rlam = (lmin + lmax) / 2 := by
  have hs := C34_split_collapse [name, "range".toList, a, b] ':' (by simp) (by simp [hn, ha, hb])
  rw [show collapseSep [name, "range".toList, a, b] [':'] = name ++ ':' :: ("range".toList ++ ':' :: (a ++ ':' :: b)) by rw [collapseSep_eq]; simp [List.intercalate]] at hs
  unfold getFilter
  rw [hs, Res.ok_bind, if_neg (by simp)]
  simp only [Res.rd, List.getElem?_cons_succ, List.getElem?_cons_zero, Res.ok_bind]
  rw [if_pos trivial, if_neg (by simp), h1, h2]
  dsimp only
  rw [rangeFilter_eq, Res.ok_bind]
  have hA : 0 < lmax - lmin + (lmin + lmax) / 200 := by linarith
  refine ⟨_, rfl, rfl, ?_, ⟨1 / (lmax - lmin + (lmin + lmax) / 200), one_div_pos.2 hA, rfl⟩, ?_, rfl⟩
  · simp only [List.pairwise_cons, List.mem_cons, List.not_mem_nil, or_false, forall_eq_or_imp, forall_eq, false_imp_iff, forall_true_iff, List.Pairwise.nil, and_true]
    refine ⟨⟨?_, ?_, ?_, ?_, ?_⟩, ⟨?_, ?_, ?_, ?_⟩, ⟨?_, ?_, ?_⟩, ⟨?_, ?_⟩, ?_⟩ <;> linarith
  · generalize hc : lmax - lmin + (lmin + lmax) / 200 = A at hA
    simp only [area]
    have e : (0 + 0) / 2 * (99 / 100 * lmin - lmin / 2) + ((0 + 1 / A) / 2 * (lmin - 99 / 100 * lmin) + ((1 / A + 1 / A) / 2 * (lmax - lmin) +
        ((1 / A + 0) / 2 * (101 / 100 * lmax - lmax) + ((0 + 0) / 2 * (2 * lmax - 101 / 100 * lmax) + 0)))) = 1 / A * A := by
      rw [← hc]; ring
    rw [e, one_div, inv_mul_cancel₀ hA.ne']

/-- The wavelength of such a filter is not "integrated" as it is for other filters: the integral of the wavelength times its response is larger. -/
theorem C151_center_refuted [IsStrictOrderedRing K] (lmin lmax : K) (h3 : 0 < lmin) (h4 : lmin < lmax) (f : Filter K) (h : rangeFilter lmin lmax = .ok f) :
    f.rlam < area f.lam (List.zipWith (· * ·) f.res f.lam) := by
  rw [rangeFilter_eq, Res.ok.injEq] at h
  subst h
  have hA : 0 < lmax - lmin + (lmin + lmax) / 200 := by linarith
  generalize hc : lmax - lmin + (lmin + lmax) / 200 = A at hA
  simp only [area, List.zipWith_cons_cons, List.zipWith_nil_left]
  have e : (0 * (lmin / 2) + 0 * (99 / 100 * lmin)) / 2 * (99 / 100 * lmin - lmin / 2) + ((0 * (99 / 100 * lmin) + 1 / A * lmin) / 2 * (lmin - 99 / 100 * lmin) +
      ((1 / A * lmin + 1 / A * lmax) / 2 * (lmax - lmin) + ((1 / A * lmax + 0 * (101 / 100 * lmax)) / 2 * (101 / 100 * lmax - lmax) +
      ((0 * (101 / 100 * lmax) + 0 * (2 * lmax)) / 2 * (2 * lmax - 101 / 100 * lmax) + 0)))) =
      1 / A * ((lmin + lmax) / 2 * A + (lmax - lmin) ^ 2 / 400) := by rw [← hc]; ring
  rw [e, mul_add, ← mul_assoc, mul_comm (1 / A) ((lmin + lmax) / 2), mul_assoc, one_div, inv_mul_cancel₀ hA.ne', mul_one]
  have : 0 < A⁻¹ * ((lmax - lmin) ^ 2 / 400) := mul_pos (inv_pos.2 hA) (div_pos (pow_pos (by linarith) 2) (by norm_num))
  linarith

theorem area_smul (c : K) (y : List K) : ∀ x : List K, area x (y.map (c * ·)) = c * area x y := by
  induction y with
  | nil => intro x; simp [area]
  | cons y0 y ih =>
    intro x
    match x, y, ih with
    | [], _, _ => simp [area]
    | [_], _, _ => simp [area]
    | _ :: _ :: _, [], _ => simp [area]
    | x0 :: x1 :: xs, y1 :: ys, ih =>
      have := ih (x1 :: xs)
      simp only [List.map_cons, area] at this ⊢
      rw [this]; ring

/-- The response of a file is not normalized, and the wavelength is not the mean wavelength: with a response that is multiplied by `c` it is multiplied by `c`. -/
theorem C151_scale_refuted (rd rd' : Str → Res (List K × List K)) (name : Str) (lam res : List K) (c : K) (h1 : res.length = lam.length) (h0 : lam ≠ [])
    (hr : rd name = .ok (lam, res)) (hr' : rd' name = .ok (lam, res.map (c * ·))) :
    ∃ w, ofFile rd name = .ok (.found ⟨w, lam, res⟩) ∧ ofFile rd' name = .ok (.found ⟨c * w, lam, res.map (c * ·)⟩) := by
  refine ⟨area lam (List.zipWith (· * ·) res lam), ?_, ?_⟩
  · dsimp only [ofFile]
    rw [hr, Res.ok_bind, Res.check_pos h1, Res.ok_bind, integrate_area _ _ (by simp [h1]) h0, Res.ok_bind]
  · dsimp only [ofFile]
    rw [hr', Res.ok_bind, Res.check_pos (by simpa using h1), Res.ok_bind, integrate_area _ _ (by simp [h1]) h0, Res.ok_bind]
    have : List.zipWith (· * ·) (res.map (c * ·)) lam = (List.zipWith (· * ·) res lam).map (c * ·) := by
      rw [List.zipWith_map_left, List.map_zipWith]
      simp only [mul_assoc]
    rw [this, area_smul]

/-- A name with a colon is never searched for in the library. -/
theorem C151_colon_refuted (num : Str → Option K) (rd : Str → Res (List K × List K)) (db : Map Str) (str : Str) (hc : ':' ∈ str) : getFilter num rd db str = getFilter num rd [] str := by
  obtain ⟨l, h1, h2⟩ := C34_split str [':'] (by simp)
  obtain ⟨k1, k2, -⟩ := C34_collapse_split str [':'] l (by simp) h1
  unfold getFilter
  rw [h1, Res.ok_bind, Res.ok_bind]
  have : ¬ l.length = 1 := by
    intro hl
    obtain ⟨a, rfl⟩ := List.length_eq_one_iff.1 hl
    rw [collapseSep_eq] at k1
    have e : a = str := by simpa [List.intercalate] using k1
    obtain ⟨s, t, e'⟩ := List.append_of_mem hc
    exact k2 a (by simp) ⟨s, t, by rw [e, e']; simp⟩
  rw [if_neg this, if_neg this]

/-- An empty file of a filter is read out of its bounds. -/
theorem C151_empty_refuted [IsStrictOrderedRing K] (rd : Str → Res (List K × List K)) (name : Str) (hr : rd name = .ok ([], [])) : ofFile rd name = .ub := by
  dsimp only [ofFile]
  rw [hr, Res.ok_bind, Res.check_pos rfl, Res.ok_bind]
  simp only [List.zipWith_nil_left]
  rw [C28_cumul_empty_refuted.2]; rfl

/-- Any other text with a colon is refused, and no file is read: another kind of filter than 'range' and 'file', or another number of fields, or limits that are not numbers. -/
theorem C151_bad (num : Str → Option K) (rd : Str → Res (List K × List K)) (db : Map Str) (name : Str) (fields : List Str) (hn : ':' ∉ name) (hf : ∀ f ∈ fields, ':' ∉ f) (h0 : fields ≠ [])
    (h1 : ∀ a b, fields = ["range".toList, a, b] → num a = none ∨ num b = none) (h2 : ∀ a, fields ≠ ["file".toList, a]) :
    getFilter num rd db (List.intercalate [':'] (name :: fields)) = .ok .bad := by
  have hs := C34_split_collapse (name :: fields) ':' (by simp) (by simpa [hn] using hf)
  rw [collapseSep_eq] at hs
  obtain ⟨kind, l, rfl⟩ := List.exists_cons_of_ne_nil h0
  unfold getFilter
  rw [hs, Res.ok_bind, if_neg (by simp)]
  simp only [Res.rd, List.getElem?_cons_succ, List.getElem?_cons_zero, Res.ok_bind]
  by_cases hr : kind = "range".toList
  · rw [if_pos hr]
    by_cases hl : (name :: kind :: l).length = 4
    · rw [if_neg (by simpa using hl)]
      match l, hl with
      | [a, b], _ =>
        simp only [List.getElem?_cons_succ, List.getElem?_cons_zero, Res.ok_bind]
        rcases h1 a b (by rw [hr]) with h | h
        · rw [h]
        · rw [h]; cases num a <;> rfl
    · rw [if_pos hl]
  · rw [if_neg hr]
    by_cases hk : kind = "file".toList
    · rw [if_pos hk]
      by_cases hl : (name :: kind :: l).length = 3
      · match l, hl with
        | [a], _ => exact absurd (by rw [hk]) (h2 a)
      · rw [if_pos hl]
    · rw [if_neg hk]

/-- `a:range:1:2:3`, `a:file` and `a:box:1` are refused -/
example (num : Str → Option ℚ) (rd : Str → Res (List ℚ × List ℚ)) (db : Map Str) : getFilter num rd db "a:range:1:2:3".toList = .ok .bad ∧ getFilter num rd db "a:file".toList = .ok .bad ∧
    getFilter num rd db "a:box:1".toList = .ok .bad :=
  ⟨C151_bad num rd db "a".toList ["range".toList, "1".toList, "2".toList, "3".toList] (by decide) (by decide) (by simp) (by simp) (by simp),
   C151_bad num rd db "a".toList ["file".toList] (by decide) (by decide) (by simp) (by simp) (by simp),
   C151_bad num rd db "a".toList ["box".toList, "1".toList] (by decide) (by decide) (by simp) (by simp) (by simp)⟩

/-- A bank of filters: all of them, after the ones it contained; or, if one of them is refused, the ones before it. -/
theorem C151_bank (num : Str → Option K) (rd : Str → Res (List K × List K)) (db : Map Str) (strs : List Str) (fils r : List (Filter K)) (ok : Bool)
    (h : getFilters num rd db strs fils = .ok (ok, r)) :
    ∃ n fs, r = fils ++ fs ∧ fs.length = n ∧ (strs.take n).map (getFilter num rd db) = fs.map (fun f => .ok (.found f)) ∧
      (ok = true → n = strs.length) ∧ (ok = false → ∃ s o, strs[n]? = some s ∧ getFilter num rd db s = .ok o ∧ ∀ f, o ≠ .found f) := by
  induction strs generalizing fils with
  | nil =>
    simp only [getFilters, Res.ok.injEq, Prod.mk.injEq] at h
    obtain ⟨rfl, rfl⟩ := h
    exact ⟨0, [], by simp⟩
  | cons s l ih =>
    rw [getFilters] at h
    obtain ⟨o, ho, h⟩ := Res.bind_eq_ok.1 h
    cases o with
    | found f =>
      obtain ⟨n, fs, e1, e2, e3, e4, e5⟩ := ih (fils ++ [f]) h
      refine ⟨n + 1, f :: fs, by rw [e1]; simp, by simp [e2], by simp [ho, e3], fun hk => by simp [e4 hk], fun hk => ?_⟩
      obtain ⟨s', o, g1, g2⟩ := e5 hk
      exact ⟨s', o, by simpa using g1, g2⟩
    | unknown names =>
      simp only [Res.ok.injEq, Prod.mk.injEq] at h
      obtain ⟨rfl, rfl⟩ := h
      exact ⟨0, [], by simp, rfl, by simp, by simp, fun _ => ⟨s, _, by simp, ho, by simp⟩⟩
    | bad =>
      simp only [Res.ok.injEq, Prod.mk.injEq] at h
      obtain ⟨rfl, rfl⟩ := h
      exact ⟨0, [], by simp, rfl, by simp, by simp, fun _ => ⟨s, _, by simp, ho, by simp⟩⟩

end

/-- Identifiers: the call says that all the names are known exactly if they are, and gives the identifier of each known name, and `npos` for the other ones. -/
theorem C151_ids (m : Map Nat) (hs : Sorted m) (strs : List Str) :
    ((getIds m strs).1 = true ↔ ∀ s ∈ strs, ∃ id, (s, id) ∈ m) ∧ (getIds m strs).2.length = strs.length ∧
      ∀ (i : Nat) (s : Str), strs[i]? = some s → (∀ id, (s, id) ∈ m → (getIds m strs).2[i]? = some (some id)) ∧ ((∀ id, (s, id) ∉ m) → (getIds m strs).2[i]? = some none) := by
  have hg : ∀ s, (getId m s).1 = find s m := by intro s; unfold getId; cases find s m <;> rfl
  have key : ∀ (l : List Str) (b : Bool) (r : List (Option Nat)),
      l.foldl (fun s str => let r := (getId m str).1; (if r.isSome then s.1 else false, s.2 ++ [r])) (b, r) = (b && l.all (fun s => (find s m).isSome), r ++ l.map fun s => find s m) := by
    intro l
    induction l with
    | nil => intro b r; simp
    | cons s l ih =>
      intro b r
      rw [List.foldl_cons]
      dsimp only
      rw [ih, hg]
      cases hf : find s m <;> simp [hf]
  have e : getIds m strs = (strs.all (fun s => (find s m).isSome), strs.map fun s => find s m) := by
    unfold getIds; rw [key]; simp
  rw [e]
  refine ⟨?_, by simp, fun i s hi => ⟨fun id h => ?_, fun h => ?_⟩⟩
  · simp only [List.all_eq_true, Option.isSome_iff_exists, find_some_iff hs]
  · simp [hi, (find_some_iff hs).2 h]
  · have : find s m = none := by
      cases hf : find s m with
      | none => rfl
      | some v => exact absurd ((find_some_iff hs).1 hf) (h v)
    simp [hi, this]

/-- two filters, with a comment, a line that is not a definition and a second definition -/
example : readMap (fun s => if s.all Char.isDigit then some (Nat.ofDigitChars 10 s 0) else none) (some "# x=1\nb=20\n  a=13 \nhello\na=4\nc=z\nc=5".toList) =
    .ok [("a".toList, 13), ("b".toList, 20), ("c".toList, 5)] := by decide +kernel

example : getIds [("a".toList, 13), ("b".toList, 20)] ["b".toList, "x".toList] = (false, [some 20, none]) := by decide +kernel

example : (getId [("abd".toList, 13), ("bcd".toList, 20), ("abe".toList, 2)] "abc".toList).2 = ["abd".toList, "abe".toList] := by decide +kernel

example : getFilter (K := ℚ) (fun s => if s = ['1'] then some 1 else if s = ['2'] then some 2 else none) (fun _ => .abort) [] "x:range:1:2".toList =
    .ok (.found ⟨3 / 2, [1 / 2, 99 / 100, 1, 2, 101 / 50, 4], [0, 0, 200 / 203, 200 / 203, 0, 0]⟩) := by decide +kernel

example : getFilter (K := ℚ) (fun _ => none) (fun p => if p = "d/u.dat".toList then .ok ([1, 2, 3], [0, 1, 0]) else .abort) [("u".toList, "d/u.dat".toList)] "u".toList =
    .ok (.found ⟨2, [1, 2, 3], [0, 1, 0]⟩) := by decide +kernel

end Verif.FilterDb
