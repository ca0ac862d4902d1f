import Verif.Tools.FitstoolProps
/-!
# C183: removing keywords with `fitstool`, and its questions
-/
namespace Verif.Fitstool
open Verif Verif.Str Verif.StrConv Verif.Sex Verif.Fits

/-! ### Spec -/

/-- a number with at least two digits -/
def TwoDigits (x : Nat) (s : Str) : Prop := if x < 10 then s = '0' :: Io.dec x else s = Io.dec x

/-- the keywords of the axes after the second one that are known to `make2d`: for an axis `i` and the others `j` -/
def OfExtraAxis (naxis : Nat) (name : Str) : Prop :=
  ∃ i, 3 ≤ i ∧ i ≤ naxis ∧
    ((∃ b ∈ ["NAXIS", "CTYPE", "CUNIT", "CRVAL", "CRPIX", "CROTA", "CDELT"], name = String.toList b ++ Io.dec i) ∨
     ∃ j, 1 ≤ j ∧ j ≤ naxis ∧ ∃ x y, (x = i ∧ y = j ∨ x = j ∧ y = i) ∧
       (name = "PC".toList ++ Io.dec x ++ ['_'] ++ Io.dec y ∨ ∃ s t, TwoDigits x s ∧ TwoDigits y t ∧ name = "PC".toList ++ s ++ ['_'] ++ t))

/-- a line that means yes, or no -/
def Means (line : Str) (b : Bool) : Prop :=
  if b then line.map Char.toLower = "y".toList ∨ line.map Char.toLower = "yes".toList
  else line.map Char.toLower = "n".toList ∨ line.map Char.toLower = "no".toList

/-! ### Helpers -/

theorem delete_none {ks : Keys} {name : Str} : deleteKey ks name = none ↔ Lacks ks name := by
  induction ks with
  | nil => simp [deleteKey, Lacks]
  | cons k ks ih =>
    unfold deleteKey
    by_cases h : k.1 = name
    · rw [if_pos h]
      simp [Lacks, h]
    · rw [if_neg h, Option.map_eq_none_iff, ih]
      simp [Lacks, h]

theorem delete_some {ks ks' : Keys} {name : Str} (h : deleteKey ks name = some ks') :
    ∃ a v b, ks = a ++ (name, v) :: b ∧ ks' = a ++ b ∧ Lacks a name := by
  induction ks generalizing ks' with
  | nil => simp [deleteKey] at h
  | cons k ks ih =>
    unfold deleteKey at h
    by_cases hk : k.1 = name
    · rw [if_pos hk] at h
      injection h with h
      subst h
      exact ⟨[], k.2, ks, by rw [← hk]; rfl, rfl, by simp [Lacks]⟩
    · rw [if_neg hk, Option.map_eq_some_iff] at h
      obtain ⟨w, hw, rfl⟩ := h
      obtain ⟨a, v, b, rfl, rfl, ha⟩ := ih hw
      refine ⟨k :: a, v, b, rfl, rfl, ?_⟩
      intro x hx
      rcases List.mem_cons.1 hx with rfl | hx
      · exact hk
      · exact ha x hx

theorem filter_lacks {ks : Keys} {name : Str} (h : Lacks ks name) : ks.filter (fun k => decide (k.1 ≠ name)) = ks := by
  rw [List.filter_eq_self]
  intro k hk
  simpa using h k hk

theorem deleteAll_eq (n : Nat) (ks : Keys) (name : Str) (h : ks.length < n) :
    deleteAll n ks name = .ok (ks.filter fun k => decide (k.1 ≠ name)) := by
  induction n generalizing ks with
  | zero => omega
  | succ n ih =>
    unfold deleteAll
    cases hd : deleteKey ks name with
    | none => simp only; rw [filter_lacks (delete_none.1 hd)]
    | some ks' =>
      obtain ⟨a, v, b, rfl, rfl, ha⟩ := delete_some hd
      simp only
      rw [ih (a ++ b) (by simp at h ⊢; omega)]
      simp

theorem two_iff (x : Nat) (s : Str) : TwoDigits x s ↔ s = two x := by
  have h1 := Nat.length_toDigits_le_iff (b := 10) (n := x) (k := 1) (by omega) (by omega)
  have h0 : 0 < (Io.dec x).length := List.length_pos_iff.2 Nat.toDigits_ne_nil
  change (Io.dec x).length ≤ 1 ↔ x < 10 ^ 1 at h1
  unfold TwoDigits two
  split
  · rw [show 2 - (Io.dec x).length = 1 by omega]; rfl
  · rw [show 2 - (Io.dec x).length = 0 by omega]; rfl

theorem mem_extra (naxis : Nat) (name : Str) : name ∈ extraKeys naxis ↔ OfExtraAxis naxis name := by
  unfold extraKeys OfExtraAxis
  rw [List.mem_flatMap]
  refine exists_congr fun i => ?_
  rw [List.mem_range'_1, List.mem_append, List.mem_map, List.mem_flatMap]
  constructor
  · rintro ⟨h1, h2⟩
    refine ⟨h1.1, by omega, ?_⟩
    rcases h2 with ⟨b, hb, rfl⟩ | ⟨j, hj, h⟩
    · exact Or.inl ⟨b, hb, rfl⟩
    · rw [List.mem_range'_1] at hj
      refine Or.inr ⟨j, hj.1, by omega, ?_⟩
      simp only [List.mem_cons, List.not_mem_nil, or_false] at h
      rcases h with h | h | h | h
      · exact ⟨i, j, Or.inl ⟨rfl, rfl⟩, Or.inr ⟨_, _, (two_iff i _).2 rfl, (two_iff j _).2 rfl, h⟩⟩
      · exact ⟨j, i, Or.inr ⟨rfl, rfl⟩, Or.inr ⟨_, _, (two_iff j _).2 rfl, (two_iff i _).2 rfl, h⟩⟩
      · exact ⟨i, j, Or.inl ⟨rfl, rfl⟩, Or.inl h⟩
      · exact ⟨j, i, Or.inr ⟨rfl, rfl⟩, Or.inl h⟩
  · rintro ⟨h1, h2, h⟩
    refine ⟨⟨h1, by omega⟩, ?_⟩
    rcases h with ⟨b, hb, rfl⟩ | ⟨j, h3, h4, x, y, hxy, h⟩
    · exact Or.inl ⟨b, hb, rfl⟩
    · refine Or.inr ⟨j, by rw [List.mem_range'_1]; omega, ?_⟩
      simp only [List.mem_cons, List.not_mem_nil, or_false]
      simp only [two_iff] at h
      rcases hxy with ⟨rfl, rfl⟩ | ⟨rfl, rfl⟩ <;> rcases h with h | ⟨_, _, rfl, rfl, h⟩ <;> simp [h]

theorem delete_fold (l : List Str) (ks : Keys) (hd : (ks.map Prod.fst).Nodup) :
    l.foldl (fun ks k => (deleteKey ks k).getD ks) ks = ks.filter fun k => decide (k.1 ∉ l) := by
  induction l generalizing ks with
  | nil => simp
  | cons n l ih =>
    rw [List.foldl_cons]
    have e : (deleteKey ks n).getD ks = ks.filter fun k => decide (k.1 ≠ n) := by
      cases h : deleteKey ks n with
      | none => rw [filter_lacks (delete_none.1 h)]; rfl
      | some ks' =>
        obtain ⟨a, v, b, rfl, rfl, ha⟩ := delete_some h
        have hb : Lacks b n := by
          rw [List.map_append, List.map_cons] at hd
          have h1 := (List.nodup_append.1 hd).2.1
          have h2 := (List.nodup_cons.1 h1).1
          intro x hx hn
          exact h2 (List.mem_map.2 ⟨x, hx, hn⟩)
        rw [List.filter_append, List.filter_cons_of_neg (by simp), filter_lacks ha, filter_lacks hb]; rfl
    rw [e, ih]
    · rw [List.filter_filter]
      congr 1
      funext k
      simp [Bool.and_comm]
    · exact hd.sublist (List.filter_sublist.map _)

/-! ### C183 -/

/-- `rmkwd` removes every keyword that has one of the names, in any case, and nothing else; the others stay in order. It always ends. -/
theorem C183_remove (ks : Keys) (key : List Str) :
    removeKeys ks key = .ok (ks.filter fun k => decide (∀ n ∈ key, k.1 ≠ n.map Char.toUpper)) := by
  unfold removeKeys
  induction key generalizing ks with
  | nil => simp
  | cons n key ih =>
    rw [List.foldlM_cons, deleteAll_eq _ _ _ (Nat.lt_succ_self _), Res.ok_bind, ih, List.filter_filter]
    congr 1
    congr 1
    funext k
    simp [Bool.and_comm]

/-- `make2d` changes nothing when the image has at most two axes, or when one of the others has more than one pixel; it succeeds only for two axes. -/
theorem C183_make2d_none (ks : Keys) (naxes : List Nat) (h : naxes.length ≤ 2 ∨ ∃ n ∈ naxes.drop 2, n ≠ 1) :
    make2d ks naxes = (decide (naxes.length = 2), ks) := by
  unfold make2d
  by_cases h1 : naxes.length < 2
  · rw [if_pos h1]; congr 1; simp; omega
  · rw [if_neg h1]
    by_cases h2 : naxes.length = 2
    · rw [if_pos h2]; simp [h2]
    · rw [if_neg h2]
      have h3 : ∃ n ∈ naxes.drop 2, n ≠ 1 := by
        rcases h with h | h
        · omega
        · exact h
      rw [if_neg]
      · simp [h2]
      · obtain ⟨n, hn, h4⟩ := h3
        intro h5
        rw [List.all_eq_true] at h5
        exact h4 (by simpa using h5 n hn)

/-- Otherwise, when no keyword is there twice, `make2d` removes the keywords of the extra axes that it knows, sets `NAXIS` to 2 and leaves all the others. -/
theorem C183_make2d_partial (ks : Keys) (naxes : List Nat) (h : 2 < naxes.length) (h1 : ∀ n ∈ naxes.drop 2, n = 1) (hd : (ks.map Prod.fst).Nodup) :
    ∃ ks', make2d ks naxes = (true, ks') ∧ Has ks' "NAXIS".toList "2".toList ∧ (∀ name, OfExtraAxis naxes.length name → Lacks ks' name) ∧
      ∀ name v, name ≠ "NAXIS".toList → ¬ OfExtraAxis naxes.length name → (Has ks' name v ↔ Has ks name v) := by
  classical
  refine ⟨_, by unfold make2d; rw [if_neg (by omega), if_neg (by omega), if_pos (by simpa using h1)], ?_, ?_, ?_⟩
  · rw [← lookup_iff, rawKey_update, if_pos rfl]; decide +kernel
  · intro name hn
    rw [← rawKey_none, rawKey_update, if_neg, delete_fold _ _ hd, rawKey_none]
    · intro k hk hkn
      rw [List.mem_filter, decide_eq_true_eq, mem_extra] at hk
      exact hk.2 (hkn ▸ hn)
    · rintro rfl
      obtain ⟨i, hi, _, ⟨b, hb, he⟩ | ⟨j, _, _, x, y, _, he | ⟨_, _, _, _, he⟩⟩⟩ := hn
      · have hl := congrArg List.length he
        have hp : 0 < (Io.dec i).length := by
          unfold Io.dec
          exact List.length_pos_iff.2 (Nat.toDigits_ne_nil)
        rw [List.length_append] at hl
        simp only [List.mem_cons, List.not_mem_nil, or_false] at hb
        have h5 : (String.toList b).length = 5 := by rcases hb with rfl | rfl | rfl | rfl | rfl | rfl | rfl <;> rfl
        have h6 : "NAXIS".toList.length = 5 := rfl
        omega
      · rw [List.append_assoc, List.append_assoc] at he
        have := congrArg List.head? he
        simp at this
      · rw [List.append_assoc, List.append_assoc] at he
        have := congrArg List.head? he
        simp at this
  · intro name v h2 h3
    rw [← lookup_iff, ← lookup_iff, rawKey_update, if_neg h2, delete_fold _ _ hd]
    unfold rawKey
    rw [List.find?_filter]
    have : (fun a : Str × Str => decide (decide (a.1 ∉ extraKeys naxes.length) = true ∧ decide (a.1 = name) = true)) = fun a => decide (a.1 = name) := by
      funext a
      by_cases ha : a.1 = name
      · have : a.1 ∉ extraKeys naxes.length := by rw [mem_extra, ha]; exact h3
        simp [ha, ha ▸ this]
      · simp [ha]
    simp only [this]

/-- The matrix `CDi_j` of the extra axes stays in the header of the image, which has only two axes. -/
theorem C183_make2d_refuted : make2d [("NAXIS".toList, "3".toList), ("NAXIS3".toList, "1".toList), ("CRVAL3".toList, "5".toList), ("CD3_3".toList, "1".toList)] [10, 10, 1] =
    (true, [("NAXIS".toList, "2".toList), ("CD3_3".toList, "1".toList)]) := by decide +kernel

/-- A question is answered by the first line that is `y`, `yes`, `n` or `no` in any case; the lines before it are ignored, and those after it are kept. -/
theorem C183_confirm (lines : List Str) (b : Bool) (rest : List Str) :
    confirm lines = .ok (b, rest) ↔ ∃ pre line, lines = pre ++ line :: rest ∧ Means line b ∧ ∀ l ∈ pre, ∀ c, ¬ Means l c := by
  induction lines with
  | nil => simp [confirm]
  | cons l ls ih =>
    unfold confirm
    dsimp only
    have hno : ∀ b, Means l b → ((∃ pre line, l :: ls = pre ++ line :: rest ∧ Means line b ∧ ∀ l ∈ pre, ∀ c, ¬ Means l c) ↔ ls = rest) := by
      intro b hb
      constructor
      · rintro ⟨pre, line, he, hl, hp⟩
        cases pre with
        | nil => simp at he; exact he.2
        | cons p pre =>
          simp only [List.cons_append, List.cons.injEq] at he
          obtain ⟨rfl, _⟩ := he
          exact absurd hb (hp l (by simp) b)
      · rintro rfl
        exact ⟨[], l, rfl, hb, by simp⟩
    have hyn : ¬ (Means l true ∧ Means l false) := by
      rintro ⟨h1, h2⟩
      simp only [Means, if_true, Bool.false_eq_true, if_false] at h1 h2
      rcases h1 with h1 | h1 <;> rcases h2 with h2 | h2 <;> rw [h1] at h2 <;> exact absurd h2 (by decide)
    by_cases hy : Means l true
    · rw [if_pos (by simpa [Means] using hy)]
      constructor
      · intro h
        injection h with h
        injection h with h1 h2
        subst h1
        exact (hno true hy).2 h2
      · intro h
        cases b with
        | true => rw [(hno true hy).1 h]
        | false =>
          obtain ⟨pre, line, he, hl, hp⟩ := h
          cases pre with
          | nil =>
            simp only [List.nil_append, List.cons.injEq] at he
            obtain ⟨rfl, _⟩ := he
            exact absurd ⟨hy, hl⟩ hyn
          | cons p pre =>
            simp only [List.cons_append, List.cons.injEq] at he
            obtain ⟨rfl, _⟩ := he
            exact absurd hy (hp l (by simp) true)
    · rw [if_neg (by simpa [Means] using hy)]
      by_cases hn : Means l false
      · rw [if_pos (by simpa [Means] using hn)]
        constructor
        · intro h
          injection h with h
          injection h with h1 h2
          subst h1
          exact (hno false hn).2 h2
        · intro h
          cases b with
          | false => rw [(hno false hn).1 h]
          | true =>
            obtain ⟨pre, line, he, hl, hp⟩ := h
            cases pre with
            | nil =>
              simp only [List.nil_append, List.cons.injEq] at he
              obtain ⟨rfl, _⟩ := he
              exact absurd hl hy
            | cons p pre =>
              simp only [List.cons_append, List.cons.injEq] at he
              obtain ⟨rfl, _⟩ := he
              exact absurd hn (hp l (by simp) false)
      · rw [if_neg (by simpa [Means] using hn), ih]
        have hb : ∀ c, ¬ Means l c := fun c => by cases c; exacts [hn, hy]
        constructor
        · rintro ⟨pre, line, rfl, hl, hp⟩
          refine ⟨l :: pre, line, rfl, hl, ?_⟩
          intro x hx
          rcases List.mem_cons.1 hx with rfl | hx
          · exact hb
          · exact hp x hx
        · rintro ⟨pre, line, he, hl, hp⟩
          cases pre with
          | nil =>
            simp only [List.nil_append, List.cons.injEq] at he
            obtain ⟨rfl, _⟩ := he
            exact absurd hl (hb b)
          | cons p pre =>
            simp only [List.cons_append, List.cons.injEq] at he
            obtain ⟨rfl, rfl⟩ := he
            exact ⟨pre, line, rfl, hl, fun x hx => hp x (by simp [hx])⟩

/-- A question never ends when the input ends without an answer, for instance when the program runs without a terminal. -/
theorem C183_confirm_refuted (lines : List Str) (h : ∀ l ∈ lines, ∀ c, ¬ Means l c) : confirm lines = .diverge := by
  induction lines with
  | nil => rfl
  | cons l ls ih =>
    unfold confirm
    dsimp only
    rw [if_neg, if_neg]
    · exact ih fun x hx => h x (by simp [hx])
    · simpa [Means] using h l (by simp) false
    · simpa [Means] using h l (by simp) true

example : confirm ["".toList, "maybe".toList, " y".toList, "YES".toList, "n".toList] = .ok (true, ["n".toList]) := by decide +kernel
example : removeKeys [("A".toList, "1".toList), ("B".toList, "2".toList), ("A".toList, "3".toList)] ["a".toList] = .ok [("B".toList, "2".toList)] := by decide +kernel
example : TwoDigits 3 "03".toList ∧ TwoDigits 12 "12".toList := by unfold TwoDigits; decide +kernel
example : OfExtraAxis 4 "PC3_1".toList ∧ OfExtraAxis 4 "CTYPE4".toList :=
  ⟨⟨3, by omega, by omega, Or.inr ⟨1, by omega, by omega, 3, 1, Or.inl ⟨rfl, rfl⟩, Or.inl (by decide +kernel)⟩⟩,
   ⟨4, by omega, by omega, Or.inl ⟨"CTYPE", by simp, by decide +kernel⟩⟩⟩

end Verif.Fitstool
