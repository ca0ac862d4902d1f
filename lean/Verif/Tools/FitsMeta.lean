import Verif.Tools.FitsColumnsProps
import Verif.Find.SortProps
import Verif.Math.OrderProps
/-!
# Moving meta columns with `fitstool` (C186)
-/
namespace Verif.Fitstool
open Verif Verif.Str

variable {α : Type}

/-! ### Specification -/

/-- the columns that have this dimension, and those that do not -/
def having (d : Nat) (t : List (Col α)) : List (Col α) := t.filter fun c => decide (d ∈ c.naxes)
def lacking (d : Nat) (t : List (Col α)) : List (Col α) := t.filter fun c => decide (d ∉ c.naxes)

/-- the table split on a dimension; there is no second table if it would be empty -/
def splitOn (d : Nat) (t : List (Col α)) : List (Col α) × Option (List (Col α)) :=
  if lacking d t = [] then (t, none) else (having d t, some (lacking d t))

/-- all the dimensions of the table -/
def allDims (t : List (Col α)) : List Nat := t.flatMap Col.naxes

/-! ### Helpers -/

theorem udims_ok (t : List (Col α)) : ∃ u, udims t = .ok u ∧ u.Pairwise (· < ·) ∧ ∀ d, d ∈ u ↔ d ∈ allDims t := by
  obtain ⟨w, h1, h2, h3⟩ := Find.C15_unique_values_partial ((allDims t).map some) (by simp)
  have hw : ∀ x ∈ w, ∃ n, x = some n := by
    intro x hx
    obtain ⟨n, _, rfl⟩ := List.mem_map.1 ((h3 x).1 hx)
    exact ⟨n, rfl⟩
  refine ⟨w.filterMap id, by unfold udims; erw [h1]; rfl, ?_, ?_⟩
  · rw [List.pairwise_filterMap]
    refine h2.imp ?_
    rintro a b hab x hx y hy
    obtain rfl : a = some x := hx
    obtain rfl : b = some y := hy
    simpa [FP.less] using hab
  · intro d
    rw [List.mem_filterMap]
    constructor
    · rintro ⟨a, ha, he⟩
      obtain rfl : a = some d := he
      simpa using (h3 _).1 ha
    · intro hd
      exact ⟨some d, (h3 _).2 (by simpa using hd), rfl⟩

theorem rowDim_ok (dims u : List Nat) (hu : u ≠ []) : ∃ d, rowDim dims u = .ok d ∧ d ∈ u := by
  unfold rowDim
  by_cases h : u.length = 1
  · rw [if_pos h, Res.rd_lt (by omega)]; exact ⟨_, rfl, List.getElem_mem _⟩
  · rw [if_neg h]
    dsimp only
    have hlen : (Find.sort ((u.map fun x => dims.count x).map some)).length = u.length := by
      have := (Find.C14_sort ((u.map fun x => dims.count x).map some)).1.length_eq
      simpa using this
    have hwl : ((List.zipWith (· + ·) (List.range u.length) (Find.sort ((u.map fun x => dims.count x).map some))).map some).length = u.length := by
      rw [List.length_map, List.length_zipWith, List.length_range, hlen, Nat.min_self]
    obtain ⟨p, h1, h2, _⟩ := Math.C25_max ((List.zipWith (· + ·) (List.range u.length) (Find.sort ((u.map fun x => dims.count x).map some))).map some) (by
      intro h0
      rw [h0] at hwl
      exact hu (List.length_eq_zero_iff.1 (by simpa using hwl.symm)))
    have hp : p.1 < u.length := by
      have := (List.getElem?_eq_some_iff.1 h2.1).1
      rwa [hwl] at this
    rw [h1, Res.ok_bind]
    obtain ⟨k, x⟩ := p
    dsimp only at hp ⊢
    rw [Res.rd_lt hp]
    exact ⟨_, rfl, List.getElem_mem _⟩

theorem metaCols_mem (d i : Nat) (t : List (Col α)) : ∀ j ∈ metaCols d i t, i ≤ j := by
  induction t generalizing i with
  | nil => simp [metaCols]
  | cons c t ih =>
    unfold metaCols
    split
    · intro j hj; have := ih (i + 1) j hj; omega
    · intro j hj
      rcases List.mem_cons.1 hj with rfl | hj
      · exact Nat.le_refl _
      · have := ih (i + 1) j hj; omega

/-- the columns listed, counted from `i`, and the table without them -/
theorem metaCols_spec (d i : Nat) (hi : 0 < i) (pre t : List (Col α)) (hp : pre.length + 1 = i) :
    (metaCols d i t).mapM (fun j => Res.rd (pre ++ t) (j - 1)) = .ok (lacking d t) ∧
    (metaCols d i t).reverse.foldl (fun t j => t.eraseIdx (j - 1)) (pre ++ t) = pre ++ having d t ∧
    (metaCols d i t).length = (lacking d t).length := by
  induction t generalizing i pre with
  | nil => simp [metaCols, lacking, having, Res.pure_def]
  | cons c t ih =>
    obtain ⟨h1, h2, h3⟩ := ih (i + 1) (by omega) (pre ++ [c]) (by simp; omega)
    rw [List.append_assoc, List.singleton_append] at h1 h2
    unfold metaCols lacking having
    by_cases hc : d ∈ c.naxes
    · have ha : c.naxes.any (· == d) = true := by
        rw [List.any_eq_true]; exact ⟨d, hc, by simp⟩
      rw [if_pos ha, List.filter_cons_of_neg (by simpa using hc), List.filter_cons_of_pos (by simpa using hc)]
      refine ⟨h1, by rw [h2]; simp [having], h3⟩
    · have ha : ¬ c.naxes.any (· == d) = true := by
        rw [List.any_eq_true]
        rintro ⟨x, hx, he⟩
        exact hc (by simpa using (by simpa using he : x = d) ▸ hx)
      rw [if_neg ha, List.filter_cons_of_pos (by simpa using hc), List.filter_cons_of_neg (by simpa using hc)]
      have hrd : Res.rd (pre ++ c :: t) (i - 1) = .ok c := by
        rw [Res.rd_eq_ok, show i - 1 = pre.length by omega]; simp
      refine ⟨?_, ?_, by simp [h3, lacking]⟩
      · rw [List.mapM_cons, hrd, Res.ok_bind, h1, Res.ok_bind]; rfl
      · rw [List.reverse_cons, List.foldl_append, h2, List.foldl_cons, List.foldl_nil, show i - 1 = pre.length by omega]
        rw [List.append_assoc, List.singleton_append, List.eraseIdx_append_of_length_le (by omega)]
        simp [having]

/-- inserting at the position of the last column, or at the end, always inserts at the end -/
theorem insert_fold (t : List (Col α)) (n : Nat) (mcols : List Nat) (l acc : List (Col α)) (h : mcols.mapM (fun j => Res.rd t (j - 1)) = .ok l)
    (hn : acc.length + mcols.length ≤ n) :
    mcols.foldlM (fun nt i => do
      let c ← Res.rd t (i - 1)
      .ok (nt.insertIdx (min (n - 1) nt.length) c)) acc = .ok (acc ++ l) := by
  induction mcols generalizing acc l with
  | nil => simp only [List.mapM_nil, Res.pure_def, Res.ok.injEq] at h; subst h; simp [Res.pure_def]
  | cons j js ih =>
    rw [List.mapM_cons, Res.bind_eq_ok] at h
    obtain ⟨c, hc, h⟩ := h
    rw [Res.bind_eq_ok] at h
    obtain ⟨l', hl, h⟩ := h
    rw [Res.pure_def, Res.ok.injEq] at h
    subst h
    rw [List.length_cons] at hn
    rw [List.foldlM_cons, hc, Res.ok_bind, Res.ok_bind, Nat.min_eq_right (by omega), List.insertIdx_length_self,
      ih l' (acc ++ [c]) hl (by simp; omega)]
    simp

theorem moveCols_eq (d : Nat) (t : List (Col α)) : moveCols t (metaCols d 1 t) = .ok (having d t, lacking d t) := by
  obtain ⟨h1, h2, _⟩ := metaCols_spec d 1 (by omega) [] t rfl
  unfold moveCols
  rw [insert_fold t _ _ (lacking d t) [] h1 (by simp), Res.ok_bind]
  rw [List.nil_append] at h2
  rw [h2, List.nil_append, List.nil_append]

theorem metaCols_nil (d : Nat) (t : List (Col α)) : metaCols d 1 t = [] ↔ lacking d t = [] := by
  rw [← List.length_eq_zero_iff, ← List.length_eq_zero_iff, (metaCols_spec d 1 (by omega) [] t rfl).2.2]

/-! ### C186 -/

/-- With `force`, a dimension of the table is chosen; the columns that do not have it are moved, with their values and in order, to a new table, and the others
stay. Nothing is lost. -/
theorem C186_split (readDim : Str → Option Nat) (t : List (Col α)) (lines : List Str) (ht : allDims t ≠ []) :
    ∃ d, d ∈ allDims t ∧ moveMeta readDim t true lines = .ok (splitOn d t) := by
  obtain ⟨u, h1, _, h3⟩ := udims_ok t
  have hu : u ≠ [] := by
    rintro rfl
    apply ht
    rw [List.eq_nil_iff_forall_not_mem]
    intro d hd
    simpa using (h3 d).2 hd
  obtain ⟨d, h4, h5⟩ := rowDim_ok (allDims t) u hu
  refine ⟨d, (h3 d).1 h5, ?_⟩
  unfold moveMeta
  rw [if_neg (by rintro rfl; exact ht rfl), h1, Res.ok_bind]
  unfold chooseDim
  erw [h4]
  rw [Res.ok_bind, if_pos (Or.inr rfl), Res.ok_bind]
  dsimp only
  unfold splitOn
  by_cases hl : lacking d t = []
  · rw [if_pos hl, if_pos ((metaCols_nil d t).2 hl)]
  · rw [if_neg hl, if_neg (fun h => hl ((metaCols_nil d t).1 h)), if_pos rfl, Res.ok_bind]
    dsimp only
    rw [if_pos rfl, moveCols_eq, Res.ok_bind]

/-- The columns are all in one of the two tables. -/
theorem C186_nothing_lost (d : Nat) (t : List (Col α)) :
    ((splitOn d t).1 ++ (splitOn d t).2.getD []).Perm t ∧ (∀ c ∈ (splitOn d t).1, d ∈ c.naxes) ∧ ∀ c ∈ (splitOn d t).2.getD [], d ∉ c.naxes := by
  unfold splitOn
  have hall : lacking d t = [] → ∀ c ∈ t, d ∈ c.naxes := by
    intro h c hc
    by_contra hd
    have : c ∈ lacking d t := List.mem_filter.2 ⟨hc, by simpa using hd⟩
    rw [h] at this
    cases this
  by_cases hl : lacking d t = []
  · rw [if_pos hl]
    exact ⟨by simp, hall hl, by simp⟩
  · rw [if_neg hl]
    refine ⟨?_, ?_, ?_⟩
    · have := List.filter_append_perm (fun c : Col α => decide (d ∈ c.naxes)) t
      refine List.Perm.trans ?_ this
      apply List.Perm.append_left
      simp only [Option.getD_some, lacking, decide_not]
      exact List.Perm.refl _
    · intro c hc; simpa using (List.mem_filter.1 hc).2
    · intro c hc; simpa using (List.mem_filter.1 hc).2

theorem chosen_force (readDim : Str → Option Nat) (t : List (Col α)) (lines : List Str) (u : List Nat) (d : Nat) (ht : allDims t ≠ []) (h1 : udims t = .ok u)
    (h4 : rowDim (allDims t) u = .ok d) : moveMeta readDim t true lines = .ok (splitOn d t) := by
  unfold moveMeta
  rw [if_neg (by rintro rfl; exact ht rfl), h1, Res.ok_bind]
  unfold chooseDim
  erw [h4]
  rw [Res.ok_bind, if_pos (Or.inr rfl), Res.ok_bind]
  dsimp only
  unfold splitOn
  by_cases hl : lacking d t = []
  · rw [if_pos hl, if_pos ((metaCols_nil d t).2 hl)]
  · rw [if_neg hl, if_neg (fun h => hl ((metaCols_nil d t).1 h)), if_pos rfl, Res.ok_bind]
    dsimp only
    rw [if_pos rfl, moveCols_eq, Res.ok_bind]

theorem sort_two (x y : Nat) : Find.sort [some x, some y] = if x ≤ y then [0, 1] else [1, 0] := by
  symm
  apply Find.C14_sort_unique
  · split
    · exact (by decide : [0, 1].Perm (List.range 2))
    · exact (by decide : [1, 0].Perm (List.range 2))
  · by_cases h : x ≤ y
    · rw [if_pos h]
      simp [Find.elt, FP.less]
      omega
    · rw [if_neg h]
      simp [Find.elt, FP.less]
      omega

/-- When there are two dimensions, the one that is there most often is the dimension of the rows (the largest one if there is a tie); when there is only one,
no column moves. -/
theorem C186_two (readDim : Str → Option Nat) (t : List (Col α)) (lines : List Str) (a b : Nat) (hab : a < b) (h : ∀ d, d ∈ allDims t ↔ d = a ∨ d = b) :
    moveMeta readDim t true lines = .ok (splitOn (if (allDims t).count a ≤ (allDims t).count b then b else a) t) := by
  obtain ⟨u, h1, h2, h3⟩ := udims_ok t
  have hu : u = [a, b] := by
    apply List.Perm.eq_of_pairwise (le := (· < ·)) (fun x y _ _ h1 h2 => by omega) h2 (by simpa using hab)
    rw [List.perm_ext_iff_of_nodup (h2.imp fun h => Nat.ne_of_lt h) (by simpa using Nat.ne_of_lt hab)]
    intro d
    rw [h3, h]; simp
  subst hu
  apply chosen_force readDim t lines [a, b] _ _ h1
  · unfold rowDim
    rw [if_neg (by simp)]
    dsimp only
    simp only [List.map_cons, List.map_nil, sort_two]
    by_cases hc : (allDims t).count a ≤ (allDims t).count b
    · rw [if_pos hc, if_pos hc]; rfl
    · rw [if_neg hc, if_neg hc]; rfl
  · intro h0
    have := (h a).2 (Or.inl rfl)
    rw [h0] at this
    cases this

theorem C186_one (readDim : Str → Option Nat) (t : List (Col α)) (force : Bool) (lines : List Str) (a : Nat) (h : ∀ c ∈ t, a ∈ c.naxes ∧ ∀ d ∈ c.naxes, d = a) :
    moveMeta readDim t force lines = .ok (t, none) := by
  cases t with
  | nil => rfl
  | cons c0 t0 =>
    generalize ht : c0 :: t0 = t at *
    have ha : ∀ d, d ∈ allDims t ↔ d = a := by
      intro d
      unfold allDims
      rw [List.mem_flatMap]
      constructor
      · rintro ⟨c, hc, hd⟩; exact (h c hc).2 d hd
      · rintro rfl; exact ⟨c0, by rw [← ht]; simp, (h c0 (by rw [← ht]; simp)).1⟩
    obtain ⟨u, h1, h2, h3⟩ := udims_ok t
    have hu : u = [a] := by
      apply List.Perm.eq_of_pairwise (le := (· < ·)) (fun x y _ _ h1 h2 => by omega) h2 (by simp)
      rw [List.perm_ext_iff_of_nodup (h2.imp fun h => Nat.ne_of_lt h) (by simp)]
      intro d
      rw [h3, ha]; simp
    subst hu
    unfold moveMeta
    rw [if_neg (by rw [← ht]; simp), h1, Res.ok_bind]
    unfold chooseDim rowDim
    rw [if_pos (show [a].length = 1 by rfl), show Res.rd [a] 0 = .ok a from rfl, Res.ok_bind, if_pos (Or.inl (show [a].length = 1 by rfl)), Res.ok_bind]
    dsimp only
    rw [if_pos]
    rw [metaCols_nil, lacking, List.filter_eq_nil_iff]
    intro c hc
    simpa using (h c hc).1

/-- The user can give another dimension: after a no, the first line that is a dimension of the table is taken, whatever was proposed. -/
theorem C186_asked (readDim : Str → Option Nat) (t : List (Col α)) (l1 l3 : Str) (bad : List Str) (l2 : Str) (rest : List Str) (d a b : Nat)
    (ha : a ∈ allDims t) (hb : b ∈ allDims t) (hab : a ≠ b) (h1 : meaning l1 = some false) (hbad : ∀ l ∈ bad, ∀ x, readDim l = some x → x ∉ allDims t)
    (h2 : readDim l2 = some d) (hd : d ∈ allDims t) (h3 : meaning l3 = some true) :
    moveMeta readDim t false (l1 :: bad ++ l2 :: l3 :: rest) = .ok (splitOn d t) := by
  obtain ⟨u, e1, e2, e3⟩ := udims_ok t
  have hu : u ≠ [] := by rintro rfl; simpa using (e3 a).2 ha
  have hu1 : u.length ≠ 1 := by
    intro h
    obtain ⟨x, rfl⟩ := List.length_eq_one_iff.1 h
    have q1 := (e3 a).2 ha
    have q2 := (e3 b).2 hb
    simp only [List.mem_singleton] at q1 q2
    exact hab (q1.trans q2.symm)
  obtain ⟨d0, e4, _⟩ := rowDim_ok (allDims t) u hu
  have conf : ∀ l ls x, meaning l = some x → confirm (l :: ls) = .ok (x, ls) := by
    intro l ls x hx
    unfold meaning at hx
    unfold confirm
    dsimp only at hx ⊢
    rw [show "y".toList = ['y'] from rfl, show "yes".toList = ['y', 'e', 's'] from rfl, show "n".toList = ['n'] from rfl, show "no".toList = ['n', 'o'] from rfl]
    split at hx
    · next hy => rw [if_pos hy]; cases hx; rfl
    · next hy =>
      rw [if_neg hy]
      split at hx
      · next hz => rw [if_pos hz]; cases hx; rfl
      · cases hx
  have ask : ∀ bad : List Str, (∀ l ∈ bad, ∀ x, readDim l = some x → x ∉ allDims t) → askDim readDim u (bad ++ l2 :: l3 :: rest) = .ok (d, l3 :: rest) := by
    intro bad hbad
    induction bad with
    | nil =>
      rw [List.nil_append]
      unfold askDim
      rw [h2]
      dsimp only
      rw [if_pos ((e3 d).2 hd)]
    | cons l ls ih =>
      have := ih fun x hx => hbad x (by simp [hx])
      rw [List.cons_append]
      unfold askDim
      cases hx : readDim l with
      | none => exact this
      | some x =>
        dsimp only
        rw [if_neg (fun hm => hbad l (by simp) x hx ((e3 x).1 hm))]
        exact this
  unfold moveMeta
  rw [if_neg (by rintro rfl; cases ha), e1, Res.ok_bind]
  unfold chooseDim
  erw [e4]
  rw [Res.ok_bind, if_neg (by simp [hu1]), List.cons_append, conf _ _ _ h1, Res.ok_bind]
  dsimp only
  rw [if_neg (by simp), ask bad hbad, Res.ok_bind]
  dsimp only
  unfold splitOn
  by_cases hl : lacking d t = []
  · rw [if_pos hl, if_pos ((metaCols_nil d t).2 hl)]
  · rw [if_neg hl, if_neg (fun h => hl ((metaCols_nil d t).1 h)), if_neg (by simp), conf _ _ _ h3, Res.ok_bind]
    dsimp only
    rw [if_pos rfl, moveCols_eq, Res.ok_bind]

/-- a catalogue: three columns of three rows, and two other columns -/
def exMeta : List (Col Nat) := [⟨"ID".toList, [3], []⟩, ⟨"RA".toList, [3], []⟩, ⟨"DEC".toList, [3], []⟩, ⟨"BANDS".toList, [5], []⟩, ⟨"NOTES".toList, [7], []⟩]

/-- With more than two dimensions, the one that is chosen is neither the most common nor the largest one: the position of the dimension is added to the
sorting permutation of the counts, not to its inverse. Here the columns of the catalogue are moved, and a column of another size stays. -/
theorem C186_dim_refuted (readDim : Str → Option Nat) (lines : List Str) :
    moveMeta readDim exMeta true lines = .ok ([⟨"BANDS".toList, [5], []⟩],
      some [⟨"ID".toList, [3], []⟩, ⟨"RA".toList, [3], []⟩, ⟨"DEC".toList, [3], []⟩, ⟨"NOTES".toList, [7], []⟩]) ∧
    (allDims exMeta).count 3 = 3 ∧ (allDims exMeta).count 5 = 1 := by
  refine ⟨?_, by decide, by decide⟩
  obtain ⟨u, h1, h2, h3⟩ := udims_ok exMeta
  have hu : u = [3, 5, 7] := by
    apply List.Perm.eq_of_pairwise (le := (· < ·)) (fun x y _ _ h1 h2 => by omega) h2 (by decide)
    rw [List.perm_ext_iff_of_nodup (h2.imp fun h => Nat.ne_of_lt h) (by decide)]
    intro d
    rw [h3]
    simp [allDims, exMeta]
  subst hu
  have hs : Find.sort [some 3, some 1, some 1] = [1, 2, 0] := by
    symm; apply Find.C14_sort_unique <;> decide
  rw [chosen_force readDim exMeta lines [3, 5, 7] 5 (by decide) h1]
  · decide
  · unfold rowDim
    rw [if_neg (by decide)]
    dsimp only
    rw [show (List.map (fun u => List.count u (allDims exMeta)) [3, 5, 7]).map some = [some 3, some 1, some 1] by decide, hs]
    rfl

example : allDims exMeta ≠ [] ∧ 3 ∈ allDims exMeta ∧ 5 ∈ allDims exMeta ∧ meaning "N".toList = some false := by decide +kernel
example : (∀ d, d ∈ allDims (exMeta.take 4) ↔ d = 3 ∨ d = 5) ∧ splitOn 3 (exMeta.take 4) = (exMeta.take 3, some [⟨"BANDS".toList, [5], []⟩]) :=
  ⟨fun d => by simp [allDims, exMeta], by decide +kernel⟩
example : ∀ c ∈ exMeta.take 3, 3 ∈ c.naxes ∧ ∀ d ∈ c.naxes, d = 3 := by decide +kernel

end Verif.Fitstool
