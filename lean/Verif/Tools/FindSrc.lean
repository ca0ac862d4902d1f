import Verif.Astro.QxProps
/-!
# `findsrc` (C212)

A catalogue without positions is refused (`findsrc.cpp:29-45`), so that `n` is not zero. The names of the columns, the parsing of the arguments and the region file are not modelled; the positions written there are those of the printed indices. The distance between two positions is a
function (C55).
-/
namespace Verif.FindSrc
open Verif Verif.Qx

variable {K : Type} [LinearOrder K] {V : Type}

/-! ### Model -/

/-- what is searched: the sources with these indices, or the neighbours of a position, given by its distances to the sources of the catalogue -/
inductive Query (K : Type) where
  | ids (l : List Nat)
  | pos (dist : Nat → K)

/-- a line of the output: the distance (`none`: it is not computed and zero is printed), the index (`none`: `npos`), and the values of the columns asked for -/
structure Line (K V : Type) where
  d : Option (WithTop K)
  id : Option Nat
  show_ : List V
deriving DecidableEq

/-- `data[id]` (`findsrc.cpp:108`): an index out of range stops the program -/
def value (data : List V) : Option Nat → Res V
  | none => .abort
  | some j => match data[j]? with
    | some v => .ok v
    | none => .abort

/-- the neighbours (`findsrc.cpp:90-96`): `qxmatch` of one position with the catalogue -/
def neighbours (n nsrc : Nat) (dist : Nat → K) : Res (List (Option (WithTop K) × Option Nat)) := do
  let r ← brute (fun _ j => dist j) true false (max nsrc 1) 1 n
  let c ← Res.rd r.fwd 0
  .ok (c.map fun e => (some e.1, e.2))

/-- `findsrc` for a catalogue of `n` sources (`findsrc.cpp:46-130`); `dist i j` is the distance between two sources, `cols` are the columns in `show` that exist -/
def run (n nsrc : Nat) (dist : Nat → Nat → K) (cols : List (List V)) (q : Query K) : Res (List (Line K V)) := do
  let found ← match q with
    | .pos d => neighbours n nsrc d
    | .ids [i] => if i < n then neighbours n nsrc (dist i) else .abort
    | .ids l => .ok (l.map fun i => (none, some i))
  found.mapM fun e => do
    let vs ← cols.mapM fun c => value c e.2
    .ok ⟨e.1, e.2, vs⟩

/-! ### Helpers -/

theorem neighbours_ok (n nsrc : Nat) (dist : Nat → K) : ∃ col, NthNearest dist (fun j => j < n) (max nsrc 1) col ∧ neighbours n nsrc dist = .ok (col.map fun e => (some e.1, e.2)) := by
  obtain ⟨r, h1, h2, -, h3, -⟩ := C56_brute (fun _ j => dist j) true false (max nsrc 1) 1 n (le_max_right _ _)
  have h0 : 0 < r.fwd.length := by omega
  obtain ⟨l, k1, k2, k3⟩ := h3 0 _ (List.getElem?_eq_getElem h0)
  refine ⟨r.fwd[0], ⟨l, ?_, k2, k3⟩, ?_⟩
  · intro j; rw [k1]; simp [Other]
  · unfold neighbours
    rw [h1, Res.ok_bind, Res.rd_lt h0, Res.ok_bind]

omit [LinearOrder K] in
theorem lines_ok (n : Nat) (cols : List (List V)) (hc : ∀ c ∈ cols, c.length = n) (z : V) (found : List (Option (WithTop K) × Option Nat)) (hf : ∀ e ∈ found, ∃ j, e.2 = some j ∧ j < n) :
    (found.mapM fun e => do
      let vs ← cols.mapM fun c => value c e.2
      .ok (⟨e.1, e.2, vs⟩ : Line K V)) = .ok (found.map fun e => ⟨e.1, e.2, cols.map fun c => c.getD (e.2.getD 0) z⟩) := by
  refine Res.mapM_ok fun e he => ?_
  obtain ⟨j, h1, h2⟩ := hf e he
  rw [Res.mapM_ok (g := fun c => c.getD (e.2.getD 0) z), Res.ok_bind]
  intro c hcm
  have := hc c hcm
  rw [h1]
  simp [value, List.getElem?_eq_getElem (show j < c.length by omega)]

/-! ### C212 -/

/-- For a position, or for one source, the lines are the `nsrc` sources of the catalogue closest to it, from the closest one, with their distances and their values in the columns. For several
sources, the lines are these sources. (Full statement: for all catalogues. Here the catalogue has `nsrc` sources.) -/
theorem C212_nearest_partial (n nsrc : Nat) (hn : nsrc ≤ n) (h1 : 1 ≤ nsrc) (dist : Nat → Nat → K) (cols : List (List V)) (hc : ∀ c ∈ cols, c.length = n) (z : V) :
    (∀ d : Nat → K, ∃ l : List Nat, l.length = nsrc ∧ (∀ j ∈ l, j < n) ∧ l.Pairwise (fun a b => d a < d b ∨ (d a = d b ∧ a < b)) ∧
      (∀ j < n, j ∉ l → ∀ i ∈ l, d i < d j ∨ (d i = d j ∧ i < j)) ∧
      run n nsrc dist cols (.pos d) = .ok (l.map fun j => ⟨some (d j), some j, cols.map fun c => c.getD j z⟩)) ∧
    (∀ i < n, run n nsrc dist cols (.ids [i]) = run n nsrc dist cols (.pos (dist i))) ∧
    (∀ l : List Nat, l.length ≠ 1 → (∀ i ∈ l, i < n) → run n nsrc dist cols (.ids l) = .ok (l.map fun j => ⟨none, some j, cols.map fun c => c.getD j z⟩)) := by
  refine ⟨fun d => ?_, fun i hi => ?_, fun l hl hi => ?_⟩
  · obtain ⟨col, ⟨l, k1, k2, k3⟩, k4⟩ := neighbours_ok n nsrc d
    have hnd : l.Nodup := k2.imp fun {a b} h e => by
      subst e
      rcases h with h | ⟨-, h⟩
      · exact lt_irrefl _ h
      · omega
    have hlen : l.length = n := by
      have hp : l.Perm (List.range n) := (List.perm_ext_iff_of_nodup hnd List.nodup_range).2 fun j => by rw [k1, List.mem_range]
      rw [hp.length_eq, List.length_range]
    rw [max_eq_left h1] at k3
    rw [hlen, Nat.sub_eq_zero_of_le hn, List.replicate_zero, List.append_nil] at k3
    refine ⟨l.take nsrc, by simp [hlen, hn], fun j hj => (k1 j).1 (List.mem_of_mem_take hj), k2.sublist (List.take_sublist _ _), ?_, ?_⟩
    · intro j hj hjl i hi
      have hjm : j ∈ l.drop nsrc := by
        have := (k1 j).2 hj
        rw [← List.take_append_drop nsrc l] at this
        exact (List.mem_append.1 this).resolve_left hjl
      rw [← List.take_append_drop nsrc l, List.pairwise_append] at k2
      exact k2.2.2 i hi j hjm
    · unfold run
      dsimp only
      rw [k4, Res.ok_bind, lines_ok n cols hc z, k3]
      · simp [List.map_map, Function.comp_def]
      · intro e he
        rw [k3, List.map_map] at he
        obtain ⟨j, hj, rfl⟩ := List.mem_map.1 he
        exact ⟨j, rfl, (k1 j).1 (List.mem_of_mem_take hj)⟩
  · unfold run
    dsimp only
    rw [if_pos hi]
  · have hm : run n nsrc dist cols (.ids l) = ((l.map fun i => ((none : Option (WithTop K)), some i)).mapM fun e => do
        let vs ← cols.mapM fun c => value c e.2
        .ok (⟨e.1, e.2, vs⟩ : Line K V)) := by
      match l, hl with
      | [], _ => rfl
      | [_], hl => simp at hl
      | _ :: _ :: _, _ => rfl
    rw [hm, lines_ok n cols hc z]
    · simp [List.map_map, Function.comp_def]
    · intro e he
      obtain ⟨i, h, rfl⟩ := List.mem_map.1 he
      exact ⟨i, rfl, hi i h⟩

example : run (K := Rat) 3 2 (fun _ _ => 0) [["a", "b", "c"]] (.pos fun j => [5, 1, 3].getD j 0) = .ok [⟨some (1 : Rat), some 1, ["b"]⟩, ⟨some (3 : Rat), some 2, ["c"]⟩] := by decide +kernel
example : run (K := Rat) 3 2 (fun _ _ => 0) [["a", "b", "c"]] (.ids [2, 0]) = .ok [⟨none, some 2, ["c"]⟩, ⟨none, some 0, ["a"]⟩] := by decide +kernel

/-- If the catalogue has less sources than the number asked for (10 by default), the last lines have the index `npos` and an infinite distance; with any column, the program stops. -/
theorem C212_few_refuted (n nsrc : Nat) (_ : 0 < n) (hn : n < nsrc) (dist : Nat → Nat → K) (d : Nat → K) :
    (∃ lines : List (Line K V), run n nsrc dist [] (.pos d) = .ok lines ∧ ⟨some ⊤, none, []⟩ ∈ lines) ∧ 
    ∀ c (cols : List (List V)), (∀ e ∈ c :: cols, e.length = n) → run n nsrc dist (c :: cols) (.pos d) = .abort := by
  obtain ⟨col, ⟨l, k1, k2, k3⟩, k4⟩ := neighbours_ok n nsrc d
  have hnd : l.Nodup := k2.imp fun {a b} h e => by
    subst e
    rcases h with h | ⟨-, h⟩
    · exact lt_irrefl _ h
    · omega
  have hlen : l.length = n := by
    have hp : l.Perm (List.range n) := (List.perm_ext_iff_of_nodup hnd List.nodup_range).2 fun j => by rw [k1, List.mem_range]
    rw [hp.length_eq, List.length_range]
  rw [max_eq_left (by omega), hlen, List.take_of_length_le (by omega)] at k3
  obtain ⟨m, hm⟩ : ∃ m, nsrc - n = m + 1 := ⟨nsrc - n - 1, by omega⟩
  rw [hm, List.replicate_succ] at k3
  constructor
  · refine ⟨col.map fun e => ⟨some e.1, e.2, []⟩, ?_, ?_⟩
    · unfold run
      dsimp only
      rw [k4, Res.ok_bind, List.mapM_map, Res.mapM_ok (g := fun e => ⟨some e.1, e.2, []⟩)]
      intro e _
      rfl
    · refine List.mem_map.2 ⟨(⊤, none), ?_, rfl⟩
      rw [k3]; simp
  · intro c cols hsz
    have hlong : ∀ e ∈ c :: cols, n ≤ e.length := fun e he => (hsz e he).ge
    have hl : ∀ j ∈ l, j < n := fun j hj => (k1 j).1 hj
    unfold run
    dsimp only
    rw [k4, Res.ok_bind, List.mapM_map, k3]
    clear k1 k2 k3 k4 hlen hnd hsz
    induction l with
    | nil =>
      rw [List.map_nil, List.nil_append, List.mapM_cons]
      simp only [Function.comp_apply, List.mapM_cons, value]
      rfl
    | cons j l ih =>
      rw [List.map_cons, List.cons_append, List.mapM_cons]
      have hz : ∀ e ∈ c :: cols, value e (some j) = .ok (e[j]?.getD (c[j]'(by have := hlong c (by simp); have := hl j (by simp); omega))) := by
        intro e he
        have := hlong e he
        have := hl j (by simp)
        simp [value, List.getElem?_eq_getElem (show j < e.length by omega)]
      simp only [Function.comp_apply]
      rw [Res.mapM_ok hz, Res.ok_bind, Res.ok_bind, ih fun i hi => hl i (by simp [hi])]
      rfl

/-- **C212**: if columns are asked for, a source that is not in the catalogue stops the program. -/
theorem C212_missing (n nsrc : Nat) (dist : Nat → Nat → K) (c : List V) (cols : List (List V)) (hc : c.length = n) (l : List Nat) (j : Nat) (hj : n ≤ j) : run n nsrc dist (c :: cols) (.ids (j :: l)) = .abort := by
  cases l with
  | nil =>
    unfold run
    dsimp only
    rw [if_neg (by omega)]
    rfl
  | cons i l =>
    unfold run
    dsimp only
    rw [Res.ok_bind, List.map_cons, List.mapM_cons]
    have e : value c (some j) = .abort := by
      unfold value
      simp only
      rw [List.getElem?_eq_none (by omega)]
    simp only [List.mapM_cons, e]
    rfl

example : run (K := ℚ) 2 1 (fun _ _ => 0) [["a", "b"]] (.ids [2, 0]) = .abort := C212_missing 2 1 _ _ _ rfl _ 2 (by decide)

/-- One index that is out of range stops the program; several are printed (without columns). -/
theorem C212_range_refuted (n nsrc : Nat) (dist : Nat → Nat → K) : run (V := V) n nsrc dist [] (.ids [n]) = .abort ∧
    run (V := V) n nsrc dist [] (.ids [n, n]) = .ok [⟨none, some n, []⟩, ⟨none, some n, []⟩] := by
  constructor
  · unfold run
    dsimp only
    rw [if_neg (lt_irrefl _)]
    rfl
  · rfl

end Verif.FindSrc
