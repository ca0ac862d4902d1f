import Verif.Str.WordProps
import Verif.Io.TimeProps
/-!
# The list of the merged catalogues: `build_catalog_list` (C245)
-/
namespace Verif.CatList
open Verif Verif.Str Verif.Io

/-! ### Model -/

/-- what `catalog_pool` keeps of a catalogue for the list (`catalog_merge.hpp:77-91`) -/
structure Cat where
  name : Str
  sources : List Str
  files : List Str
  comment : Str
deriving DecidableEq

/-- the sources or the files (`catalog_merge.hpp:267-288`): one header if there is a single one, another if there are more, which is replaced by blanks in the next lines -/
def fieldLines (one many : Str) : List Str → List Str
  | [] => []
  | [s] => [one ++ s]
  | s :: rest => (many ++ s) :: rest.map fun x => List.replicate many.length ' ' ++ x

/-- the comment (`catalog_merge.hpp:289-294`) -/
def commentLines (width : Nat) (com : Str) : Res (List Str) :=
  if com = [] then .ok [] else wrap ("  comment: ".toList ++ com) width (List.replicate 4 ' ') false

/-- the lines of the catalogue number `k`; the reference is that of `catalog_merge.hpp:155, 207, 244` -/
def catLines (width k : Nat) (c : Cat) : Res (List Str) := do
  let com ← commentLines width c.comment
  .ok ((['['] ++ dec k ++ "]: ".toList ++ c.name) :: (fieldLines "  source: ".toList "  sources: ".toList c.sources ++
    (fieldLines "  file: ".toList "  files: ".toList c.files ++ (com ++ [[]]))))

/-- the lines of the catalogues from number `k` on -/
def poolLines (width : Nat) : Nat → List Cat → Res (List Str)
  | _, [] => .ok []
  | k, c :: cs => do
    let a ← catLines width k c
    let b ← poolLines width (k + 1) cs
    .ok (a ++ b)

/-- `build_catalog_list` (`catalog_merge.hpp:262-299`) -/
def catalogList (width : Nat) (pool : List Cat) : Res Str := do
  let l ← poolLines width 1 pool
  .ok (l.flatMap (· ++ ['\n']))

/-! ### Specification -/

/-- nothing has a line break, and the comment fits in a line -/
structure Good (width : Nat) (c : Cat) : Prop where
  name : '\n' ∉ c.name
  sources : ∀ s ∈ c.sources, '\n' ∉ s
  files : ∀ s ∈ c.files, '\n' ∉ s
  comment : '\n' ∉ c.comment
  fits : 11 + c.comment.length ≤ width

/-! ### Lemmas -/

theorem wrap_short (s : Str) (width : Nat) (indent : Str) (hs : s ≠ []) (h : s.length ≤ width) : wrap s width indent false = .ok [s] := by
  unfold wrap
  rw [wrapLoop]
  simp [hs, Nat.not_lt.2 h]

theorem commentLines_short (width : Nat) (com : Str) (h : 11 + com.length ≤ width) :
    commentLines width com = .ok (if com = [] then [] else ["  comment: ".toList ++ com]) := by
  unfold commentLines
  split
  · rfl
  · refine wrap_short _ _ _ (fun h0 => by cases h0) ?_
    rw [List.length_append]
    exact h

/-- lines without breaks can be told apart in a text -/
theorem text_inj (a b : List Str) (ha : ∀ l ∈ a, '\n' ∉ l) (hb : ∀ l ∈ b, '\n' ∉ l) (h : a.flatMap (· ++ ['\n']) = b.flatMap (· ++ ['\n'])) : a = b := by
  have key : ∀ (x y r s : Str), '\n' ∉ x → '\n' ∉ y → x ++ '\n' :: r = y ++ '\n' :: s → x = y ∧ r = s := by
    intro x
    induction x with
    | nil =>
      intro y r s _ hy h
      cases y with
      | nil => exact ⟨rfl, by simpa using h⟩
      | cons c y =>
        simp only [List.nil_append, List.cons_append, List.cons.injEq] at h
        exact absurd (by rw [h.1]; exact List.mem_cons_self) hy
    | cons c x ih =>
      intro y r s hx hy h
      cases y with
      | nil =>
        simp only [List.nil_append, List.cons_append, List.cons.injEq] at h
        exact absurd (by rw [← h.1]; exact List.mem_cons_self) hx
      | cons d y =>
        simp only [List.cons_append, List.cons.injEq] at h
        obtain ⟨h1, h2⟩ := ih y r s (fun hm => hx (by simp [hm])) (fun hm => hy (by simp [hm])) h.2
        exact ⟨by rw [h.1, h1], h2⟩
  induction a generalizing b with
  | nil =>
    cases b with
    | nil => rfl
    | cons y b => simp at h
  | cons x a ih =>
    cases b with
    | nil => simp at h
    | cons y b =>
      simp only [List.flatMap_cons, List.append_assoc, List.singleton_append] at h
      obtain ⟨h1, h2⟩ := key x y _ _ (ha x (by simp)) (hb y (by simp)) h
      rw [h1, ih b (fun l hl => ha l (by simp [hl])) (fun l hl => hb l (by simp [hl])) h2]

/-- the third character of the first line tells what comes next -/
def kind (r : List Str) : Option Char := (r.head?).bind (·[2]?)

theorem pre_kind {a l : Str} (h : a <+: l) (c : Char) (hc : a[2]? = some c) : l[2]? = some c := by
  obtain ⟨t, rfl⟩ := h
  rw [List.getElem?_append_left (List.getElem?_eq_some_iff.1 hc).1]
  exact hc

/-- the lines that continue a field -/
theorem cont_inj (pad : Str) (hp : pad[2]? = some ' ') (a b r s : List Str) (hr : kind r ≠ some ' ') (hs : kind s ≠ some ' ')
    (h : a.map (pad ++ ·) ++ r = b.map (pad ++ ·) ++ s) : a = b ∧ r = s := by
  have hk : ∀ (x : Str) (l : List Str), kind ((pad ++ x) :: l) = some ' ' := fun x l => pre_kind ⟨x, rfl⟩ ' ' hp
  induction a generalizing b with
  | nil =>
    cases b with
    | nil => exact ⟨rfl, by simpa using h⟩
    | cons y b =>
      exfalso
      apply hr
      rw [show r = _ from h]
      exact hk _ _
  | cons x a ih =>
    cases b with
    | nil =>
      exfalso
      apply hs
      rw [← show _ = s from h]
      exact hk _ _
    | cons y b =>
      simp only [List.map_cons, List.cons_append, List.cons.injEq, List.append_cancel_left_eq] at h
      obtain ⟨h1, h2⟩ := ih b h.2
      exact ⟨by rw [h.1, h1], h2⟩

theorem field_kind (one many : Str) (c : Char) (h1 : one[2]? = some c) (h2 : many[2]? = some c) (l r : List Str) (hl : l ≠ []) : kind (fieldLines one many l ++ r) = some c := by
  match l with
  | [] => exact absurd rfl hl
  | [x] => exact pre_kind ⟨x, rfl⟩ c h1
  | x :: y :: l => exact pre_kind ⟨x, rfl⟩ c h2

/-- a field -/
theorem field_inj (one many : Str) (c : Char) (h1 : one[2]? = some c) (h2 : many[2]? = some c) (hom : ∀ x y, one ++ x ≠ many ++ y)
    (a b r s : List Str) (hr : kind r ≠ some ' ' ∧ kind r ≠ some c) (hs : kind s ≠ some ' ' ∧ kind s ≠ some c)
    (h : fieldLines one many a ++ r = fieldLines one many b ++ s) : a = b ∧ r = s := by
  have hp : (List.replicate many.length ' ')[2]? = some ' ' := by
    have := (List.getElem?_eq_some_iff.1 h2).1
    simp [List.getElem?_replicate, this]
  by_cases ha : a = []
  · by_cases hb : b = []
    · subst ha hb; exact ⟨rfl, h⟩
    · subst ha
      exfalso
      apply hr.2
      rw [show r = _ from h]
      exact field_kind one many c h1 h2 b s hb
  by_cases hb : b = []
  · subst hb
    exfalso
    apply hs.2
    rw [← show _ = s from h]
    exact field_kind one many c h1 h2 a r ha
  match a, b, ha, hb, h with
  | [x], [y], _, _, h =>
    simp only [fieldLines, List.cons_append, List.nil_append, List.cons.injEq, List.append_cancel_left_eq] at h
    exact ⟨by rw [h.1], h.2⟩
  | [x], y :: z :: b, _, _, h =>
    simp only [fieldLines, List.cons_append, List.cons.injEq] at h
    exact absurd h.1 (hom _ _)
  | x :: z :: a, [y], _, _, h =>
    simp only [fieldLines, List.cons_append, List.cons.injEq] at h
    exact absurd h.1.symm (hom _ _)
  | x :: z :: a, y :: w :: b, _, _, h =>
    have h : ((many ++ x) :: (z :: a).map fun x => List.replicate many.length ' ' ++ x) ++ r = ((many ++ y) :: (w :: b).map fun x => List.replicate many.length ' ' ++ x) ++ s := h
    rw [List.cons_append, List.cons_append, List.cons.injEq, List.append_cancel_left_eq] at h
    obtain ⟨e1, e2⟩ := cont_inj _ hp (z :: a) (w :: b) r s hr.1 hs.1 h.2
    exact ⟨by rw [h.1, e1], e2⟩

theorem comment_kind (com : Str) (r : List Str) : kind ((if com = [] then [] else ["  comment: ".toList ++ com]) ++ [] :: r) = if com = [] then none else some 'c' := by
  split
  · rfl
  · rfl

theorem comment_inj (a b : Str) (r s : List Str) (h : (if a = [] then [] else ["  comment: ".toList ++ a]) ++ [] :: r = (if b = [] then [] else ["  comment: ".toList ++ b]) ++ [] :: s) :
    a = b ∧ r = s := by
  by_cases ha : a = [] <;> by_cases hb : b = []
  · subst ha hb
    simpa using h
  · rw [if_pos ha, if_neg hb] at h
    cases h
  · rw [if_neg ha, if_pos hb] at h
    cases h
  · rw [if_neg ha, if_neg hb] at h
    simp only [List.cons_append, List.nil_append, List.cons.injEq, List.append_cancel_left_eq, true_and] at h
    exact h

/-- the lines of a good catalogue -/
def plainLines (k : Nat) (c : Cat) : List Str :=
  (['['] ++ dec k ++ "]: ".toList ++ c.name) :: (fieldLines "  source: ".toList "  sources: ".toList c.sources ++
    (fieldLines "  file: ".toList "  files: ".toList c.files ++ ((if c.comment = [] then [] else ["  comment: ".toList ++ c.comment]) ++ [[]])))

theorem catLines_good {width k : Nat} {c : Cat} (h : Good width c) : catLines width k c = .ok (plainLines k c) := by
  unfold catLines
  rw [commentLines_short _ _ h.fits]
  rfl

theorem plain_inj (k : Nat) (a b : Cat) (r s : List Str) (h : plainLines k a ++ r = plainLines k b ++ s) : a = b ∧ r = s := by
  obtain ⟨an, as, af, ac⟩ := a
  obtain ⟨bn, bs, bf, bc⟩ := b
  simp only [plainLines, List.cons_append, List.append_assoc, List.cons.injEq, List.append_cancel_left_eq, List.nil_append] at h
  obtain ⟨h1, h⟩ := h
  have hc : ∀ (com : Str) (r : List Str) (x : Char), x ≠ 'c' → kind ((if com = [] then [] else ["  comment: ".toList ++ com]) ++ [] :: r) ≠ some x := by
    intro com r x hx
    rw [comment_kind]
    split
    · simp
    · simpa using hx.symm
  have hf : ∀ (l r : List Str) (x : Char), x ≠ 'f' → kind r ≠ some x → kind (fieldLines "  file: ".toList "  files: ".toList l ++ r) ≠ some x := by
    intro l r x hx hr
    by_cases hl : l = []
    · subst hl; exact hr
    · rw [field_kind _ _ 'f' rfl rfl l r hl]
      simpa using hx.symm
  obtain ⟨h2, h⟩ := field_inj "  source: ".toList "  sources: ".toList 's' rfl rfl (by
      intro x y he
      have : (some ':' : Option Char) = some 's' := congrArg (fun l : Str => l[8]?) he
      exact absurd this (by decide)) as bs _ _
    ⟨hf _ _ _ (by decide) (hc _ _ _ (by decide)), hf _ _ _ (by decide) (hc _ _ _ (by decide))⟩
    ⟨hf _ _ _ (by decide) (hc _ _ _ (by decide)), hf _ _ _ (by decide) (hc _ _ _ (by decide))⟩ h
  obtain ⟨h3, h⟩ := field_inj "  file: ".toList "  files: ".toList 'f' rfl rfl (by
      intro x y he
      have : (some ':' : Option Char) = some 's' := congrArg (fun l : Str => l[6]?) he
      exact absurd this (by decide)) af bf _ _
    ⟨hc _ _ _ (by decide), hc _ _ _ (by decide)⟩ ⟨hc _ _ _ (by decide), hc _ _ _ (by decide)⟩ h
  obtain ⟨h4, h⟩ := comment_inj _ _ _ _ h
  exact ⟨by rw [h1.2, h2, h3, h4], h⟩

theorem plain_breaks {width k : Nat} {c : Cat} (h : Good width c) : ∀ l ∈ plainLines k c, '\n' ∉ l := by
  have hf : ∀ (one many : Str) (v : List Str), '\n' ∉ one → '\n' ∉ many → (∀ s ∈ v, '\n' ∉ s) → ∀ l ∈ fieldLines one many v, '\n' ∉ l := by
    intro one many v h1 h2 hv l hl
    match v, hv, hl with
    | [], _, hl => cases hl
    | [x], hv, hl =>
      simp only [fieldLines, List.mem_singleton] at hl
      subst hl
      simp [h1, hv x (by simp)]
    | x :: y :: v, hv, hl =>
      have hl : l ∈ (many ++ x) :: (y :: v).map fun x => List.replicate many.length ' ' ++ x := hl
      rcases List.mem_cons.1 hl with rfl | hl
      · simp [h2, hv x (by simp)]
      · obtain ⟨z, hz, rfl⟩ := List.mem_map.1 hl
        have := hv z (List.mem_cons_of_mem _ hz)
        simp [this]
  have hd : '\n' ∉ dec k := by
    intro hm
    have := digits_dec k _ hm
    revert this
    decide
  intro l hl
  unfold plainLines at hl
  rcases List.mem_cons.1 hl with rfl | hl
  · have := h.name
    have h2 : '\n' ∉ "]: ".toList := by decide
    simp only [List.mem_append, not_or]
    exact ⟨⟨⟨by decide, hd⟩, h2⟩, this⟩
  rcases List.mem_append.1 hl with hl | hl
  · exact hf _ _ _ (by decide) (by decide) h.sources l hl
  rcases List.mem_append.1 hl with hl | hl
  · exact hf _ _ _ (by decide) (by decide) h.files l hl
  rcases List.mem_append.1 hl with hl | hl
  · split at hl
    · cases hl
    · rw [List.mem_singleton.1 hl]
      rw [List.mem_append, not_or]
      exact ⟨by decide, h.comment⟩
  · rw [List.mem_singleton.1 hl]
    simp

theorem pool_good {width : Nat} {p : List Cat} (h : ∀ c ∈ p, Good width c) (k : Nat) : ∃ l, poolLines width k p = .ok l ∧ (∀ x ∈ l, '\n' ∉ x) ∧ (p ≠ [] → l ≠ []) := by
  induction p generalizing k with
  | nil => exact ⟨[], rfl, by simp, by simp⟩
  | cons c p ih =>
    obtain ⟨l, h1, h2, -⟩ := ih (fun x hx => h x (by simp [hx])) (k + 1)
    refine ⟨plainLines k c ++ l, ?_, ?_, ?_⟩
    · show (catLines width k c >>= _) = _
      rw [catLines_good (h c (by simp)), Res.ok_bind, h1]
      rfl
    · intro x hx
      rcases List.mem_append.1 hx with hx | hx
      · exact plain_breaks (h c (by simp)) x hx
      · exact h2 x hx
    · intro _ h0
      cases h0

theorem pool_inj {width : Nat} {p q : List Cat} (hp : ∀ c ∈ p, Good width c) (hq : ∀ c ∈ q, Good width c) (k : Nat) (h : poolLines width k p = poolLines width k q) : p = q := by
  induction p generalizing k q with
  | nil =>
    cases q with
    | nil => rfl
    | cons c q =>
      obtain ⟨l, h1, -, h3⟩ := pool_good hq k
      rw [h1] at h
      exact absurd (Res.ok.inj h).symm (h3 (by simp))
  | cons c p ih =>
    cases q with
    | nil =>
      obtain ⟨l, h1, -, h3⟩ := pool_good hp k
      rw [h1] at h
      exact absurd (Res.ok.inj h) (h3 (by simp))
    | cons d q =>
      have hp' := fun x hx => hp x (List.mem_cons_of_mem c hx)
      have hq' := fun x hx => hq x (List.mem_cons_of_mem d hx)
      obtain ⟨l, h1, -, -⟩ := pool_good hp' (k + 1)
      obtain ⟨m, h2, -, -⟩ := pool_good hq' (k + 1)
      have h : (catLines width k c >>= fun a => poolLines width (k + 1) p >>= fun b => Res.ok (a ++ b)) =
        (catLines width k d >>= fun a => poolLines width (k + 1) q >>= fun b => Res.ok (a ++ b)) := h
      rw [catLines_good (hp c (by simp)), catLines_good (hq d (by simp)), Res.ok_bind, Res.ok_bind, h1, h2, Res.ok_bind, Res.ok_bind, Res.ok.injEq] at h
      obtain ⟨e1, e2⟩ := plain_inj k c d l m h
      rw [e1, ih hp' hq' (k + 1) (by rw [h1, h2, e2])]

/-! ### C245 -/

/-- **C245 (in part)**: the list can always be made, and nothing is lost in it: two pools with the same list have the same catalogues, with the same names, sources, files and comments in the
same order. Here nothing has a line break and the comments fit in a line. -/
theorem C245_list_partial (width : Nat) (p q : List Cat) (hp : ∀ c ∈ p, Good width c) (hq : ∀ c ∈ q, Good width c) :
    (∃ t, catalogList width p = .ok t) ∧ (catalogList width p = catalogList width q → p = q) := by
  obtain ⟨l, h1, h2, -⟩ := pool_good hp 1
  obtain ⟨m, h3, h4, -⟩ := pool_good hq 1
  unfold catalogList
  rw [h1, h3, Res.ok_bind, Res.ok_bind]
  refine ⟨⟨_, rfl⟩, fun h => pool_inj hp hq 1 ?_⟩
  rw [h1, h3, text_inj l m h2 h4 (Res.ok.inj h)]

/-- **C245 (in part)**: a long comment is cut in lines that have its words. -/
theorem C245_words_partial (width k : Nat) (c : Cat) (hw : 4 ≤ width) (hc : c.comment ≠ []) : ∃ l, catLines width k c = .ok ((['['] ++ dec k ++ "]: ".toList ++ c.name) ::
      (fieldLines "  source: ".toList "  sources: ".toList c.sources ++ (fieldLines "  file: ".toList "  files: ".toList c.files ++ (l ++ [[]])))) ∧
    (∀ x ∈ l, LineOk width (List.replicate 4 ' ') x) ∧ l.flatMap (words blanks) = words blanks ("  comment: ".toList ++ c.comment) := by
  obtain ⟨l, h1, h2, h3⟩ := C39_wrap ("  comment: ".toList ++ c.comment) width (List.replicate 4 ' ') (by simpa using hw) (by simp [blanks])
  refine ⟨l, ?_, h2, h3⟩
  unfold catLines commentLines
  rw [if_neg hc, h1]
  rfl

/-- the text of a pool -/
theorem C245_text : catalogList 80 [⟨"A".toList, ["X".toList], ["f1".toList, "f2".toList], "good".toList⟩, ⟨"B".toList, [], [], []⟩] =
    .ok "[1]: A\n  source: X\n  files: f1\n         f2\n  comment: good\n\n[2]: B\n\n".toList := by
  unfold catalogList poolLines catLines
  rw [commentLines_short _ _ (by decide), Res.ok_bind]
  unfold poolLines catLines
  rw [commentLines_short _ _ (by decide), Res.ok_bind]
  decide +kernel

/-- **C245 is false** for names with line breaks: one catalogue can look like two. -/
theorem C245_break_refuted : catalogList 80 [⟨"A\n\n[2]: B".toList, [], [], []⟩] = catalogList 80 [⟨"A".toList, [], [], []⟩, ⟨"B".toList, [], [], []⟩] := by decide +kernel

example : ∀ c ∈ [(⟨"A".toList, ["X".toList], ["f1".toList, "f2".toList], "good".toList⟩ : Cat), ⟨"B".toList, [], [], []⟩], Good 80 c := by
  intro c hc
  simp only [List.mem_cons, List.not_mem_nil, or_false] at hc
  rcases hc with rfl | rfl <;> constructor <;> decide +kernel

end Verif.CatList
