import Verif.Tools.FitstoolProps
/-!
# Copying the keywords of the sky coordinates with `fitstool` (`tools/fitstool/fitstool.cpp:469-556`), C187

The keywords of the two files are `Verif.Fits.Keys`, with the contract of `Verif.Io.HeaderFile`. Comments of keywords are not modelled.
-/
namespace Verif.Fitstool
open Verif Verif.Str Verif.StrConv Verif.Sex Verif.Fits

/-- the names that do not have a number (`fitstool.cpp:486-487`) -/
def wcsFixed : List Str := ["RA".toList, "DEC".toList, "EPOCH".toList, "EQUINOX".toList, "RADECSYS".toList, "SECPIX".toList, "IMWCS".toList,
  "PC001001".toList, "PC001002".toList, "PC002001".toList, "PC002002".toList, "LATPOLE".toList, "LONPOLE".toList]

/-- the list of keywords (`fitstool.cpp:485-508`) -/
def wcsKeys : List Str :=
  wcsFixed ++
  ((List.range 12).flatMap fun i => ["CO1_".toList ++ Io.dec (i + 1), "CO2_".toList ++ Io.dec (i + 1)]) ++
  ((List.range 10).flatMap fun i =>
    (["PROJP", "PV1_", "PV2_", "CTYPE", "CUNIT", "CRVAL", "CRPIX", "CDELT", "CROTA", "SECPIX", "CD"].map fun b => b.toList ++ Io.dec i) ++
    ((List.range 10).flatMap fun j => ["CD".toList ++ Io.dec i ++ ['_'] ++ Io.dec j, "PC".toList ++ Io.dec i ++ ['_'] ++ Io.dec j]))

/-- the text between the first character and the last quote (`fitstool.cpp:529-539`) -/
def innerText (v : Str) : Str := (v.reverse.dropWhile (· ≠ '\'')).tail.reverse.tail

/-- the value that is written for a value that was read (`fitstool.cpp:529-545`); `d` is the value of the variable that is not initialized -/
def copied (r : Reader (Fl ℚ)) (fmt : Fl ℚ → Str) (d : Fl ℚ) (v : Str) : Str :=
  if v.head? = some '\'' then quoteValue (innerText v) else fmt (fromString r flFallback v d).2

/-- `copy_wcs_header` (`fitstool.cpp:469-556`): the keywords of the second file -/
def copyWcs (r : Reader (Fl ℚ)) (fmt : Fl ℚ → Str) (d : Fl ℚ) (src out : Keys) : Keys :=
  wcsKeys.foldl (fun out k => match rawKey src k with
    | none => out
    | some v => updateKey out k (copied r fmt d v)) out

/-! ### Specification -/

/-- a name of the list, in words: a fixed name, `CO1_1` to `CO2_12`, one of the names of an axis with a digit, or a matrix element with two digits -/
def WcsName (k : Str) : Prop :=
  k ∈ ["RA".toList, "DEC".toList, "EPOCH".toList, "EQUINOX".toList, "RADECSYS".toList, "SECPIX".toList, "IMWCS".toList,
    "PC001001".toList, "PC001002".toList, "PC002001".toList, "PC002002".toList, "LATPOLE".toList, "LONPOLE".toList] ∨
  (∃ i, 1 ≤ i ∧ i ≤ 12 ∧ (k = "CO1_".toList ++ Io.dec i ∨ k = "CO2_".toList ++ Io.dec i)) ∨
  (∃ i, i ≤ 9 ∧ ∃ b ∈ ["PROJP", "PV1_", "PV2_", "CTYPE", "CUNIT", "CRVAL", "CRPIX", "CDELT", "CROTA", "SECPIX", "CD"], k = b.toList ++ Io.dec i) ∨
  (∃ i j, i ≤ 9 ∧ j ≤ 9 ∧ (k = "CD".toList ++ Io.dec i ++ ['_'] ++ Io.dec j ∨ k = "PC".toList ++ Io.dec i ++ ['_'] ++ Io.dec j))

/-! ### Helpers -/

theorem mem_wcsKeys (k : Str) : k ∈ wcsKeys ↔ WcsName k := by
  unfold wcsKeys WcsName
  rw [List.mem_append, List.mem_append, or_assoc]
  refine or_congr Iff.rfl (or_congr ?_ ?_)
  · rw [List.mem_flatMap]
    constructor
    · rintro ⟨i, hi, hk⟩
      rw [List.mem_range] at hi
      refine ⟨i + 1, by omega, by omega, ?_⟩
      simpa only [List.mem_cons, List.not_mem_nil, or_false] using hk
    · rintro ⟨i, h1, h2, hk⟩
      refine ⟨i - 1, List.mem_range.2 (by omega), ?_⟩
      rw [show i - 1 + 1 = i by omega]
      simpa only [List.mem_cons, List.not_mem_nil, or_false] using hk
  · rw [List.mem_flatMap]
    constructor
    · rintro ⟨i, hi, hk⟩
      rw [List.mem_range] at hi
      rw [List.mem_append] at hk
      rcases hk with hk | hk
      · left
        obtain ⟨b, hb, he⟩ := List.mem_map.1 hk
        exact ⟨i, by omega, b, hb, he.symm⟩
      · right
        obtain ⟨j, hj, hk⟩ := List.mem_flatMap.1 hk
        rw [List.mem_range] at hj
        refine ⟨i, j, by omega, by omega, ?_⟩
        simpa only [List.mem_cons, List.not_mem_nil, or_false] using hk
    · rintro (⟨i, hi, b, hb, hk⟩ | ⟨i, j, hi, hj, hk⟩)
      · exact ⟨i, List.mem_range.2 (by omega), List.mem_append.2 (Or.inl (List.mem_map.2 ⟨b, hb, hk.symm⟩))⟩
      · refine ⟨i, List.mem_range.2 (by omega), List.mem_append.2 (Or.inr (List.mem_flatMap.2 ⟨j, List.mem_range.2 (by omega), ?_⟩))⟩
        simpa only [List.mem_cons, List.not_mem_nil, or_false] using hk

theorem fold_raw (f : Str → Str) (src : Keys) (l : List Str) (out : Keys) (k : Str) :
    rawKey (l.foldl (fun out k => match rawKey src k with | none => out | some v => updateKey out k (f v)) out) k =
      if k ∈ l then (match rawKey src k with | none => rawKey out k | some v => some (f v)) else rawKey out k := by
  induction l generalizing out with
  | nil => simp
  | cons n l ih =>
    rw [List.foldl_cons, ih]
    by_cases hkl : k ∈ l
    · rw [if_pos hkl, if_pos (by simp [hkl])]
      cases hk : rawKey src k with
      | some v => rfl
      | none =>
        dsimp only
        cases hn : rawKey src n with
        | none => rfl
        | some v =>
          dsimp only
          rw [rawKey_update, if_neg]
          rintro rfl
          rw [hk] at hn; cases hn
    · rw [if_neg hkl]
      by_cases hkn : k = n
      · subst hkn
        rw [if_pos (by simp)]
        cases hk : rawKey src k with
        | none => rfl
        | some v => dsimp only; rw [rawKey_update, if_pos rfl]
      · rw [if_neg (by simp [hkl, hkn])]
        cases hn : rawKey src n with
        | none => rfl
        | some v => dsimp only; rw [rawKey_update, if_neg hkn]

theorem copy_raw (r : Reader (Fl ℚ)) (fmt : Fl ℚ → Str) (d : Fl ℚ) (src out : Keys) (k : Str) :
    rawKey (copyWcs r fmt d src out) k =
      if k ∈ wcsKeys then (match rawKey src k with | none => rawKey out k | some v => some (copied r fmt d v)) else rawKey out k :=
  fold_raw (copied r fmt d) src wcsKeys out k

theorem inner_quote (w : Str) : innerText ('\'' :: w ++ ['\'']) = w := by
  unfold innerText
  rw [List.reverse_append, List.reverse_singleton, List.singleton_append, List.dropWhile_cons_of_neg (by simp)]
  simp

/-! ### C187 -/

/-- Texts of at most 68 characters without quotes are copied exactly, whatever the second file had. -/
theorem C187_text (r : Reader (Fl ℚ)) (fmt : Fl ℚ → Str) (d : Fl ℚ) (src out : Keys) (k s : Str) (hk : WcsName k) (hq : '\'' ∉ s) (hl : s.length ≤ 68)
    (h : rawKey src k = some (quoteValue s)) : rawKey (copyWcs r fmt d src out) k = rawKey src k := by
  rw [copy_raw, if_pos ((mem_wcsKeys k).2 hk), h]
  dsimp only
  have e : ∀ s : Str, '\'' ∉ s → s.length ≤ 68 → quoteValue s = '\'' :: (s ++ List.replicate (8 - s.length) ' ') ++ ['\''] := by
    intro s hq hl
    unfold quoteValue
    dsimp only
    rw [flat_quote s hq, List.take_of_length_le hl]
    rfl
  have e1 := e s hq hl
  unfold copied
  rw [if_pos (by rw [e1]; rfl), e1, inner_quote]
  rw [e _ (by rw [List.mem_append, List.mem_replicate]; rintro (h | ⟨_, h⟩); exacts [hq h, absurd h (by decide)]) (by simp; omega)]
  have hz : 8 - (s ++ List.replicate (8 - s.length) ' ').length = 0 := by simp; omega
  rw [hz]
  simp

/-- Numbers are copied as floating point numbers. -/
theorem C187_number (r : Reader (Fl ℚ)) (fmt : Fl ℚ → Str) (d : Fl ℚ) (src out : Keys) (k v : Str) (q : Fl ℚ) (hk : WcsName k) (h0 : v.head? ≠ some '\'')
    (hv : IsNum r v q) (h : rawKey src k = some v) : rawKey (copyWcs r fmt d src out) k = some (fmt q) := by
  rw [copy_raw, if_pos ((mem_wcsKeys k).2 hk), h]
  dsimp only
  unfold copied
  rw [if_neg h0, hv d]

/-- All the other keywords of the second file stay: those that are not in the list, and those that the first file does not have. The help says that the previous
coordinates of the second file are lost; they are not (for instance `CDELT1` when the first file uses `CD1_1`). -/
theorem C187_rest (r : Reader (Fl ℚ)) (fmt : Fl ℚ → Str) (d : Fl ℚ) (src out : Keys) (k : Str) (h : ¬ WcsName k ∨ rawKey src k = none) :
    rawKey (copyWcs r fmt d src out) k = rawKey out k := by
  rw [copy_raw]
  by_cases hk : k ∈ wcsKeys
  · rw [if_pos hk, h.resolve_left fun h' => h' ((mem_wcsKeys k).1 hk)]
  · rw [if_neg hk]

/-- The second file can end with two descriptions of the scale; quotes inside of texts are doubled once more by each copy; logical values become numbers;
keywords such as `PV2_10` or the `A_1_1` of distortions are not copied. -/
theorem C187_refuted (fmt : Fl ℚ → Str) (d : Fl ℚ) :
    (rawKey (copyWcs numReader fmt d [("CD1_1".toList, "1.0".toList)] [("CDELT1".toList, "5.0".toList)]) "CDELT1".toList = some "5.0".toList ∧
      rawKey (copyWcs numReader fmt d [("CD1_1".toList, "1.0".toList)] [("CDELT1".toList, "5.0".toList)]) "CD1_1".toList = some (fmt (.fin 1))) ∧
    rawKey (copyWcs numReader fmt d [("CTYPE1".toList, quoteValue "a'b".toList)] []) "CTYPE1".toList = some (quoteValue "a''b    ".toList) ∧
    rawKey (copyWcs numReader fmt d [("IMWCS".toList, "T".toList)] []) "IMWCS".toList = some (fmt (.fin 0)) ∧
    rawKey (copyWcs numReader fmt d [("A_1_1".toList, "1".toList), ("PV2_10".toList, "1".toList)] []) "PV2_10".toList = none := by
  have n1 : IsNum numReader "1.0".toList (.fin 1) := isNum_of (by decide) (by decide +kernel)
  have w : ∀ k, k ∈ wcsKeys → ∀ src out v, rawKey src k = some v → rawKey (copyWcs numReader fmt d src out) k = some (copied numReader fmt d v) := by
    intro k hk src out v hv
    rw [copy_raw, if_pos hk, hv]
  refine ⟨⟨?_, ?_⟩, ?_, ?_, ?_⟩
  · rw [C187_rest _ _ _ _ _ _ (Or.inr (by decide +kernel))]; decide +kernel
  · exact C187_number _ _ _ _ _ _ _ _ ((mem_wcsKeys _).1 (by decide +kernel)) (by decide) n1 (by decide +kernel)
  · rw [w _ (by decide +kernel) _ _ (quoteValue "a'b".toList) (by decide +kernel)]
    unfold copied
    rw [if_pos (by decide +kernel)]
    decide +kernel
  · rw [w _ (by decide +kernel) _ _ "T".toList (by decide +kernel)]
    unfold copied
    rw [if_neg (by decide +kernel), from_indep numReader flFallback "T".toList d .nan (by decide)]
    rw [show (fromString numReader flFallback "T".toList .nan).2 = .fin 0 by decide +kernel]
  · rw [C187_rest _ _ _ _ _ _ (Or.inl (by rw [← mem_wcsKeys]; decide +kernel))]; decide +kernel

example : WcsName "CRVAL1".toList ∧ WcsName "CD2_1".toList ∧ '\'' ∉ "RA---TAN".toList ∧
    rawKey [("CTYPE1".toList, quoteValue "RA---TAN".toList)] "CTYPE1".toList = some (quoteValue "RA---TAN".toList) :=
  ⟨(mem_wcsKeys _).1 (by decide +kernel), (mem_wcsKeys _).1 (by decide +kernel), by decide, by decide +kernel⟩

end Verif.Fitstool
