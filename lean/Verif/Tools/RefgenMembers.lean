import Verif.Str.Std
/-!
# The members found by refgen (C225)

`visitor` of `tools/refgen/refgen.cpp`, which walks the declarations of a file and collects the structures and their members. The declarations are those given by the library clang, reduced to
the structures, the members (fields) and the others, all of them in the file itself. Not modelled: the declarations of the files included, which are not visited or ignored, and the names given
to the structures without a name by the variables declared with them.
-/
namespace Verif.Refgen
open Verif Verif.Str

/-! ### Model -/

/-- what clang says of the place of a declaration: first line and column, last line and column after its last character (from 1), and the same as offsets in the file -/
structure Extent where
  sl : Nat
  sc : Nat
  el : Nat
  ec : Nat
  s : Nat
  e : Nat
  deriving DecidableEq

/-- a declaration, with those inside -/
inductive Node where
  | struct (usr name : Str) (x : Extent) (kids : List Node)
  | field (name : Str) (x : Extent) (kids : List Node)
  | other (kids : List Node)

/-- `struct_t` (`refgen.cpp:156-161`) -/
structure Entry where
  usr : Str
  name : Str
  x : Extent
  members : List Str
  deriving DecidableEq

/-- `db` and `cstack` (`refgen.cpp:182-183`): the structures, and the positions in `db` of those of the stack, the last one first -/
structure St where
  db : List Entry
  stack : List Nat

/-- `is_in_parent` (`refgen.cpp:139-154`) -/
def inParent (c p : Extent) : Bool := p.s ≤ c.s && c.s < p.e && p.s ≤ c.e && c.e < p.e

/-- `while (!cstack.empty() && !is_in_parent(cursor, cstack.back().cur)) cstack.pop_back()` (`refgen.cpp:190-192,218-220`) -/
def pop (db : List Entry) (x : Extent) (stack : List Nat) : List Nat :=
  stack.dropWhile fun i => !((db[i]?).any fun d => inParent x d.x)

/-- `cstack.back().str.members.push_back(...)` (`refgen.cpp:222-226`) -/
def addMember (db : List Entry) (stack : List Nat) (name : Str) : List Entry := match stack with
  | [] => db
  | i :: _ => db.modify i fun d => { d with members := d.members ++ [name] }

mutual
/-- `visitor` (`refgen.cpp:186-244`) on a declaration and those inside -/
def visit : Node → St → St
  | .struct usr name x kids, st =>
    let stack := pop st.db x st.stack
    if usr ∈ st.db.map Entry.usr then ⟨st.db, stack⟩
    else visitAll kids ⟨st.db ++ [⟨usr, name, x, []⟩], st.db.length :: stack⟩
  | .field name x kids, st =>
    let stack := pop st.db x st.stack
    visitAll kids ⟨addMember st.db stack name, stack⟩
  | .other kids, st => visitAll kids st
/-- `clang_visitChildren` -/
def visitAll : List Node → St → St
  | [], st => st
  | n :: l, st => visitAll l (visit n st)
end

/-- The structures found in a file (`refgen.cpp:543`) -/
def structs (file : List Node) : List Entry := (visitAll file ⟨[], []⟩).db

/-! ### Specification -/

/-- a declaration alone: a structure, or a member of one -/
inductive Decl where
  | struct (usr name : Str) (x : Extent)
  | field (name : Str) (x : Extent)

def Decl.ext : Decl → Extent
  | .struct _ _ x => x
  | .field _ x => x

mutual
/-- the declarations of a file, in the order of the file -/
def decls : Node → List Decl
  | .struct u n x kids => .struct u n x :: declsAll kids
  | .field n x kids => .field n x :: declsAll kids
  | .other kids => declsAll kids
def declsAll : List Node → List Decl
  | [] => []
  | n :: l => decls n ++ declsAll l
end

/-- the text of the declaration is inside that of the structure -/
def Inside (c p : Extent) : Prop := p.s ≤ c.s ∧ c.s < p.e ∧ p.s ≤ c.e ∧ c.e < p.e

/-- the declarations inside a structure follow it without interruption -/
def Contiguous (ds : List Decl) : Prop := ∀ (i j k : Nat) (u n : Str) (x : Extent) (dj dk : Decl), i < j → j < k → ds[i]? = some (.struct u n x) → ds[j]? = some dj → ds[k]? = some dk →
  Inside dk.ext x → Inside dj.ext x

def usrs (ds : List Decl) : List Str := ds.filterMap fun d => match d with
  | .struct u _ _ => some u
  | .field _ _ => none

/-- the field at `j` is a member of the structure at `i`: it is inside, and not in another structure inside this one -/
def Owns (ds : List Decl) (i j : Nat) : Prop := i < j ∧ (∃ u n x, ds[i]? = some (.struct u n x) ∧ ∃ m y, ds[j]? = some (.field m y) ∧ Inside y x ∧
  ∀ i' u' n' x', i < i' → i' < j → ds[i']? = some (.struct u' n' x') → ¬ Inside y x')

open Classical in
/-- the names of the members of the structure at `i`, in order -/
noncomputable def membersOf (ds : List Decl) (i : Nat) : List Str := (List.range ds.length).filterMap fun (j : Nat) => match ds[j]? with
  | some (.field m _) => if Owns ds i j then some m else none
  | _ => none

open Classical in
/-- the structures of a file with their members, in order -/
noncomputable def allStructs (ds : List Decl) : List Entry := (List.range ds.length).filterMap fun (i : Nat) => match ds[i]? with
  | some (.struct u n x) => some ⟨u, n, x, membersOf ds i⟩
  | _ => none

/-! ### Helpers -/

/-- the visitor on a declaration -/
def step (st : St) (d : Decl) : St := match d with
  | .struct u n x => ⟨st.db ++ [⟨u, n, x, []⟩], st.db.length :: pop st.db x st.stack⟩
  | .field n x => ⟨addMember st.db (pop st.db x st.stack) n, pop st.db x st.stack⟩

theorem addMember_usr (db : List Entry) (stack : List Nat) (name : Str) : (addMember db stack name).map Entry.usr = db.map Entry.usr := by
  unfold addMember
  split
  · rfl
  · apply List.ext_getElem?
    intro k
    rw [List.getElem?_map, List.getElem?_map, List.getElem?_modify]
    split <;> cases db[k]? <;> rfl

theorem step_usr (st : St) (d : Decl) : (step st d).db.map Entry.usr = st.db.map Entry.usr ++ usrs [d] := by
  cases d with
  | struct u n x => simp [step, usrs]
  | field n x => simp [step, usrs, addMember_usr]

theorem usrs_append (a b : List Decl) : usrs (a ++ b) = usrs a ++ usrs b := List.filterMap_append ..

theorem foldl_usr (ds : List Decl) (st : St) : (ds.foldl step st).db.map Entry.usr = st.db.map Entry.usr ++ usrs ds := by
  induction ds generalizing st with
  | nil => simp [usrs]
  | cons d ds ih =>
    rw [List.foldl_cons, ih, step_usr, List.append_assoc, ← usrs_append]
    rfl

mutual
theorem visit_eq (n : Node) (st : St) (h : (st.db.map Entry.usr ++ usrs (decls n)).Nodup) : visit n st = (decls n).foldl step st := by
  cases n with
  | struct u nm x kids =>
    rw [visit, decls, List.foldl_cons]
    rw [decls] at h
    have hu : u ∉ st.db.map Entry.usr := by
      intro hc
      exact (List.nodup_append.1 h).2.2 u hc u (by simp [usrs]) rfl
    simp only [if_neg hu]
    rw [visitAll_eq kids _ (by
      have : (⟨st.db ++ [⟨u, nm, x, []⟩], st.db.length :: pop st.db x st.stack⟩ : St) = step st (.struct u nm x) := rfl
      rw [this, step_usr, List.append_assoc, ← usrs_append]
      exact h)]
    rfl
  | field nm x kids =>
    rw [visit, decls, List.foldl_cons]
    rw [decls] at h
    rw [visitAll_eq kids _ (by
      have : (⟨addMember st.db (pop st.db x st.stack) nm, pop st.db x st.stack⟩ : St) = step st (.field nm x) := rfl
      rw [this, step_usr, List.append_assoc, ← usrs_append]
      exact h)]
    rfl
  | other kids =>
    rw [visit, decls]
    rw [decls] at h
    exact visitAll_eq kids st h
theorem visitAll_eq (l : List Node) (st : St) (h : (st.db.map Entry.usr ++ usrs (declsAll l)).Nodup) : visitAll l st = (declsAll l).foldl step st := by
  cases l with
  | nil => rfl
  | cons n l =>
    rw [visitAll, declsAll, List.foldl_append]
    rw [declsAll, usrs_append, ← List.append_assoc] at h
    rw [visit_eq n st (List.nodup_append.1 h).1]
    apply visitAll_eq
    rw [foldl_usr]
    exact h
end

/-- a structure is declared there -/
def isStruct (ds : List Decl) (p : Nat) : Bool := match ds[p]? with
  | some (.struct _ _ _) => true
  | _ => false

/-- the positions of the structures among the first `k` declarations -/
def ps (ds : List Decl) (k : Nat) : List Nat := (List.range k).filter (isStruct ds)

open Classical in
/-- the members of a structure among the first `k` declarations -/
noncomputable def mem (ds : List Decl) (k i : Nat) : List Str := (List.range k).filterMap fun (j : Nat) => match ds[j]? with
  | some (.field m _) => if Owns ds i j then some m else none
  | _ => none

noncomputable def ent (ds : List Decl) (k p : Nat) : Entry := match ds[p]? with
  | some (.struct u n x) => ⟨u, n, x, mem ds k p⟩
  | _ => ⟨[], [], ⟨0, 0, 0, 0, 0, 0⟩, []⟩

theorem isStruct_iff {ds : List Decl} {p : Nat} : isStruct ds p = true ↔ ∃ u n x, ds[p]? = some (.struct u n x) := by
  unfold isStruct
  split
  · rename_i u n x h
    simp [h]
  · rename_i h
    simp only [Bool.false_eq_true, false_iff]
    rintro ⟨u, n, x, h'⟩
    exact h u n x h'

theorem ps_mem {ds : List Decl} {k p : Nat} : p ∈ ps ds k ↔ p < k ∧ isStruct ds p = true := by
  unfold ps
  rw [List.mem_filter, List.mem_range]

theorem ps_lt {ds : List Decl} {k i j : Nat} (hj : j < (ps ds k).length) (h : i < j) : (ps ds k)[i] < (ps ds k)[j] :=
  List.pairwise_iff_getElem.1 (show (ps ds k).Pairwise (· < ·) from (List.pairwise_lt_range (n := k)).filter _) i j (by omega) hj h

theorem takeWhile_all {p : Nat → Bool} {l : List Nat} {a : Nat} (h : a ∈ l.takeWhile p) : p a = true := by
  induction l with
  | nil => simp at h
  | cons b l ih =>
    rw [List.takeWhile_cons] at h
    split at h
    · rcases List.mem_cons.1 h with rfl | h
      · assumption
      · exact ih h
    · simp at h

theorem dropWhile_head {p : Nat → Bool} {l t : List Nat} {a : Nat} (h : l.dropWhile p = a :: t) : p a = false := by
  induction l with
  | nil => simp at h
  | cons b l ih =>
    rw [List.dropWhile_cons] at h
    split at h
    · exact ih h
    · cases h
      simp_all

theorem ps_succ (ds : List Decl) (k : Nat) : ps ds (k + 1) = ps ds k ++ if isStruct ds k then [k] else [] := by
  unfold ps
  rw [List.range_succ, List.filter_append]
  congr 1
  simp [List.filter_cons]

/-- What is known after the first `k` declarations. -/
structure Inv (ds : List Decl) (k : Nat) (st : St) : Prop where
  db : st.db = (ps ds k).map (ent ds k)
  lt : ∀ i ∈ st.stack, i < (ps ds k).length
  dec : st.stack.Pairwise fun a b => b < a
  left : ∀ (i : Nat) (h : i < (ps ds k).length), i ∉ st.stack → ∀ (j : Nat) (d : Decl), k ≤ j → ds[j]? = some d → ∀ u n x, ds[(ps ds k)[i]]? = some (.struct u n x) → ¬ Inside d.ext x

theorem inParent_iff {c p : Extent} : inParent c p = true ↔ Inside c p := by
  unfold inParent Inside
  simp [and_assoc]

/-- The stack after the structures that do not hold the declaration are removed. -/
theorem pop_spec {ds : List Decl} {k : Nat} {st : St} (hi : Inv ds k st) (d : Decl) (hd : ds[k]? = some d) :
    (∀ i ∈ pop st.db d.ext st.stack, i < (ps ds k).length) ∧ (pop st.db d.ext st.stack).Pairwise (fun a b => b < a) ∧
    (∀ (i : Nat) (h : i < (ps ds k).length), i ∉ pop st.db d.ext st.stack → ∀ u n x, ds[(ps ds k)[i]]? = some (.struct u n x) → ¬ Inside d.ext x) ∧
    ∀ i l, pop st.db d.ext st.stack = i :: l → ∃ (h : i < (ps ds k).length), ∃ u n x, ds[(ps ds k)[i]]? = some (.struct u n x) ∧ Inside d.ext x := by
  have hsub : (pop st.db d.ext st.stack).Sublist st.stack := List.dropWhile_sublist _
  have hent : ∀ (i : Nat) (h : i < (ps ds k).length), ∃ u n x, ds[(ps ds k)[i]]? = some (.struct u n x) ∧ ((st.db[i]?).any fun e => inParent d.ext e.x) = inParent d.ext x := by
    intro i h
    obtain ⟨u, n, x, hx⟩ := isStruct_iff.1 (ps_mem.1 (List.getElem_mem h)).2
    refine ⟨u, n, x, hx, ?_⟩
    rw [hi.db, List.getElem?_map, List.getElem?_eq_getElem h]
    simp only [Option.map_some, Option.any_some]
    unfold ent
    rw [hx]
  refine ⟨fun i h => hi.lt i (hsub.subset h), hi.dec.sublist hsub, ?_, ?_⟩
  · intro i h hn u n x hx
    by_cases hin : i ∈ st.stack
    · obtain ⟨u', n', x', hx', he⟩ := hent i h
      rw [hx] at hx'
      cases hx'
      have : i ∈ st.stack.takeWhile fun i => !((st.db[i]?).any fun e => inParent d.ext e.x) := by
        rw [← List.takeWhile_append_dropWhile (p := fun i => !((st.db[i]?).any fun e => inParent d.ext e.x)) (l := st.stack)] at hin
        rcases List.mem_append.1 hin with h | h
        · exact h
        · exact absurd h hn
      have := takeWhile_all this
      rw [he] at this
      rw [← inParent_iff]
      simpa using this
    · exact hi.left i h hin k d (Nat.le_refl _) hd u n x hx
  · intro i l he
    have hmem : i ∈ st.stack := hsub.subset (by rw [he]; simp)
    have h := hi.lt i hmem
    obtain ⟨u', n', x', hx', he'⟩ := hent i h
    refine ⟨h, u', n', x', hx', ?_⟩
    rw [← inParent_iff, ← he']
    have := dropWhile_head he
    simpa using this

theorem step_inv {ds : List Decl} (hc : Contiguous ds) {k : Nat} {st : St} (hi : Inv ds k st) (d : Decl) (hd : ds[k]? = some d) : Inv ds (k + 1) (step st d) := by
  obtain ⟨p1, p2, p3, p4⟩ := pop_spec hi d hd
  have hleft : ∀ (i : Nat) (h : i < (ps ds k).length), i ∉ pop st.db d.ext st.stack → ∀ (j : Nat) (d' : Decl), k ≤ j → ds[j]? = some d' →
      ∀ u n x, ds[(ps ds k)[i]]? = some (.struct u n x) → ¬ Inside d'.ext x := by
    intro i h hn j d' hj hd' u n x hx hin
    rcases Nat.eq_or_lt_of_le hj with rfl | hj
    · rw [hd] at hd'
      cases hd'
      exact p3 i h hn u n x hx hin
    · exact p3 i h hn u n x hx (hc _ k j u n x d d' (ps_mem.1 (List.getElem_mem h)).1 hj hx hd hd' hin)
  cases d with
  | struct u n x =>
    have hk : isStruct ds k = true := isStruct_iff.2 ⟨u, n, x, hd⟩
    have hps : ps ds (k + 1) = ps ds k ++ [k] := by rw [ps_succ, if_pos hk]
    have hmem : ∀ p, mem ds (k + 1) p = mem ds k p := by
      intro p
      unfold mem
      rw [List.range_succ, List.filterMap_append]
      simp [hd]
    have hent : ∀ p, ent ds (k + 1) p = ent ds k p := by
      intro p
      unfold ent
      simp only [hmem]
    have hdbl : st.db.length = (ps ds k).length := by rw [hi.db, List.length_map]
    refine ⟨?_, ?_, ?_, ?_⟩
    · show st.db ++ [_] = _
      rw [hps, List.map_append, hi.db]
      congr 1
      · apply List.map_congr_left
        intro p _
        rw [hent]
      · rw [List.map_singleton]
        unfold ent
        rw [hd]
        simp only
        congr 2
        symm
        unfold mem
        rw [List.filterMap_eq_nil_iff]
        intro j hj
        rw [List.mem_range] at hj
        split
        · rw [if_neg]
          intro ho
          have := ho.1
          omega
        · rfl
    · intro i h
      rw [hps, List.length_append, List.length_singleton]
      rcases List.mem_cons.1 h with rfl | h
      · omega
      · have := p1 i h
        omega
    · show List.Pairwise _ (_ :: _)
      refine List.pairwise_cons.2 ⟨fun a ha => ?_, p2⟩
      have := p1 a ha
      omega
    · intro i h hn j d' hj hd' u' n' x' hx
      simp only [hps] at h hx
      rw [List.length_append, List.length_singleton] at h
      have hn' : i ≠ st.db.length ∧ i ∉ pop st.db x st.stack := by
        constructor
        · rintro rfl
          exact hn (by simp [step])
        · intro hc
          exact hn (List.mem_cons_of_mem _ hc)
      have hlt : i < (ps ds k).length := by omega
      rw [List.getElem_append_left hlt] at hx
      exact hleft i hlt hn'.2 j d' (by omega) hd' u' n' x' hx
  | field m y =>
    have hk : isStruct ds k = false := by
      unfold isStruct
      rw [hd]
    have hps : ps ds (k + 1) = ps ds k := by rw [ps_succ, if_neg (by rw [hk]; decide), List.append_nil]
    -- the owner of the field
    have hown : ∀ (i : Nat) (h : i < (ps ds k).length), Owns ds (ps ds k)[i] k ↔ ∃ l, pop st.db y st.stack = i :: l := by
      intro i h
      obtain ⟨u, n, x, hx⟩ := isStruct_iff.1 (ps_mem.1 (List.getElem_mem h)).2
      constructor
      · rintro ⟨h1, u', n', x', hx', m', y', hy, hin, hlast⟩
        rw [hd] at hy
        cases hy
        rw [hx] at hx'
        cases hx'
        have hmem : i ∈ pop st.db y st.stack := by
          by_contra hcon
          exact p3 i h hcon u n x hx hin
        cases hpop : pop st.db y st.stack with
        | nil => rw [hpop] at hmem; simp at hmem
        | cons a l =>
          obtain ⟨ha, u2, n2, x2, hx2, hin2⟩ := p4 a l hpop
          rw [hpop] at hmem
          rcases List.mem_cons.1 hmem with rfl | hl
          · exact ⟨l, rfl⟩
          · have hlt : i < a := by
              have := p2
              rw [show (Decl.field m y).ext = y from rfl, hpop] at this
              exact (List.pairwise_cons.1 this).1 i hl
            exact absurd hin2 (hlast _ u2 n2 x2 (ps_lt ha hlt) (ps_mem.1 (List.getElem_mem ha)).1 hx2)
      · rintro ⟨l, hl⟩
        obtain ⟨h', u', n', x', hx', hin⟩ := p4 i l hl
        rw [hx] at hx'
        cases hx'
        refine ⟨(ps_mem.1 (List.getElem_mem h)).1, u, n, x, hx, m, y, hd, hin, ?_⟩
        intro i' u2 n2 x2 h1 h2 h3 h4
        obtain ⟨a, ha, rfl⟩ := List.getElem_of_mem (ps_mem.2 ⟨h2, isStruct_iff.2 ⟨u2, n2, x2, h3⟩⟩)
        have hlt : i < a := by
          rcases Nat.lt_trichotomy i a with h5 | h5 | h5
          · exact h5
          · subst h5; omega
          · have := ps_lt h h5; omega
        refine p3 a ha ?_ u2 n2 x2 h3 h4
        rw [show (Decl.field m y).ext = y from rfl, hl]
        intro hmem
        rcases List.mem_cons.1 hmem with rfl | hmem
        · omega
        · have := p2
          rw [show (Decl.field m y).ext = y from rfl, hl] at this
          have := (List.pairwise_cons.1 this).1 a hmem
          omega
    have hmem : ∀ p, mem ds (k + 1) p = mem ds k p ++ (open Classical in if Owns ds p k then [m] else []) := by
      intro p
      unfold mem
      rw [List.range_succ, List.filterMap_append]
      congr 1
      simp only [List.filterMap_cons, List.filterMap_nil, hd]
      split <;> rename_i h <;> split at h <;> simp_all
    refine ⟨?_, by rw [hps]; exact p1, p2, ?_⟩
    · show addMember st.db (pop st.db y st.stack) m = _
      rw [hps, hi.db]
      apply List.ext_getElem?
      intro i
      rw [List.getElem?_map]
      by_cases h : i < (ps ds k).length
      · rw [List.getElem?_eq_getElem h]
        obtain ⟨u, n, x, hx⟩ := isStruct_iff.1 (ps_mem.1 (List.getElem_mem h)).2
        have e2 : ent ds (k + 1) (ps ds k)[i] = { ent ds k (ps ds k)[i] with members := (ent ds k (ps ds k)[i]).members ++ (open Classical in if Owns ds (ps ds k)[i] k then [m] else []) } := by
          unfold ent
          rw [hx]
          simp only [hmem]
        rw [Option.map_some, e2]
        unfold addMember
        rw [← hi.db]
        cases hpop : pop st.db y st.stack with
        | nil =>
          have : ¬ Owns ds (ps ds k)[i] k := by
            rw [hown i h, hpop]; simp
          rw [if_neg this, List.append_nil]
          simp only
          rw [hi.db, List.getElem?_map, List.getElem?_eq_getElem h]
          rfl
        | cons a l =>
          simp only
          rw [List.getElem?_modify, hi.db, List.getElem?_map, List.getElem?_eq_getElem h]
          by_cases ha : a = i
          · have : Owns ds (ps ds k)[i] k := by
              rw [hown i h, hpop, ha]; exact ⟨l, rfl⟩
            rw [if_pos this]
            simp only [if_pos ha]
            rfl
          · have : ¬ Owns ds (ps ds k)[i] k := by
              rw [hown i h, hpop]
              rintro ⟨l', hl'⟩
              cases hl'
              exact ha rfl
            rw [if_neg this, List.append_nil]
            simp only [if_neg ha]
            rfl
      · rw [List.getElem?_eq_none (by omega : (ps ds k).length ≤ i)]
        apply List.getElem?_eq_none
        have := congrArg List.length (addMember_usr ((ps ds k).map (ent ds k)) (pop ((ps ds k).map (ent ds k)) y st.stack) m)
        simp only [List.length_map] at this
        omega
    · intro i h hn j d' hj hd' u' n' x' hx
      simp only [hps] at h hx
      exact hleft i h hn j d' (by omega) hd' u' n' x' hx

theorem fold_inv {ds : List Decl} (hc : Contiguous ds) (k : Nat) (hk : k ≤ ds.length) : Inv ds k ((ds.take k).foldl step ⟨[], []⟩) := by
  induction k with
  | zero =>
    refine ⟨rfl, by simp, by simp, ?_⟩
    intro i h
    simp [ps] at h
  | succ k ih =>
    have hlt : k < ds.length := by omega
    rw [List.take_add_one, List.getElem?_eq_getElem hlt]
    simp only [Option.toList_some, List.foldl_append, List.foldl_cons, List.foldl_nil]
    exact step_inv hc (ih (by omega)) _ (List.getElem?_eq_getElem hlt)

/-! ### C225 -/

/-- The structures found are those declared in the file, in order, each one with its members, in order, if each one is declared once. (Full statement: also if some are declared before they are
defined.) The declarations inside of a structure follow it. -/
theorem C225_members_partial (file : List Node) (hu : (usrs (declsAll file)).Nodup) (hc : Contiguous (declsAll file)) : structs file = allStructs (declsAll file) := by
  unfold structs
  rw [visitAll_eq file ⟨[], []⟩ (by simpa using hu)]
  have := (fold_inv hc _ (Nat.le_refl _)).db
  rw [List.take_of_length_le (Nat.le_refl _)] at this
  rw [this]
  unfold ps allStructs
  have key : ∀ l : List Nat, (l.filter (isStruct (declsAll file))).map (ent (declsAll file) (declsAll file).length) = l.filterMap fun (i : Nat) => match (declsAll file)[i]? with
      | some (.struct u n x) => some ⟨u, n, x, membersOf (declsAll file) i⟩
      | _ => none := by
    intro l
    induction l with
    | nil => rfl
    | cons a l ih =>
      rw [List.filter_cons, List.filterMap_cons]
      by_cases h : isStruct (declsAll file) a = true
      · rw [if_pos h]
        obtain ⟨u, n, x, hx⟩ := isStruct_iff.1 h
        simp only [List.map_cons, hx]
        rw [ih]
        congr 1
        unfold ent
        rw [hx]
        rfl
      · rw [if_neg h, ih]
        have hn : ∀ u n x, (declsAll file)[a]? ≠ some (.struct u n x) := fun u n x hx => h (isStruct_iff.2 ⟨u, n, x, hx⟩)
        cases hd : (declsAll file)[a]? with
        | none => rfl
        | some d =>
          cases d with
          | struct u n x => exact absurd hd (hn u n x)
          | field m y => rfl
  exact key _

/-- an example: a structure with a structure inside, and a member after it -/
def exFile : List Node := [.other [.struct "A".toList "A".toList ⟨1, 1, 5, 2, 0, 60⟩ [.field "a".toList ⟨2, 5, 2, 10, 15, 20⟩ [],
  .struct "B".toList "B".toList ⟨3, 5, 3, 25, 25, 45⟩ [.field "x".toList ⟨3, 15, 3, 20, 35, 40⟩ []], .field "b".toList ⟨3, 5, 3, 28, 25, 48⟩ []]]]
example : structs exFile = [⟨"A".toList, "A".toList, ⟨1, 1, 5, 2, 0, 60⟩, ["a".toList, "b".toList]⟩, ⟨"B".toList, "B".toList, ⟨3, 5, 3, 25, 25, 45⟩, ["x".toList]⟩] := by rfl
example : (usrs (declsAll exFile)).Nodup := by decide
example : Contiguous (declsAll exFile) := by
  have key : ∀ i : Fin 5, ∀ j : Fin 5, ∀ k : Fin 5, (decide (i < j) && decide (j < k) && isStruct (declsAll exFile) i &&
      inParent (((declsAll exFile)[k.1]?).getD (.field [] ⟨0, 0, 0, 0, 0, 0⟩)).ext (((declsAll exFile)[i.1]?).getD (.field [] ⟨0, 0, 0, 0, 0, 0⟩)).ext) = true →
      inParent (((declsAll exFile)[j.1]?).getD (.field [] ⟨0, 0, 0, 0, 0, 0⟩)).ext (((declsAll exFile)[i.1]?).getD (.field [] ⟨0, 0, 0, 0, 0, 0⟩)).ext = true := by decide +kernel
  intro i j k u n x dj dk hij hjk hi hj hk h
  have hl : (declsAll exFile).length = 5 := rfl
  have lk := (List.getElem?_eq_some_iff.1 hk).1
  have := key ⟨i, by omega⟩ ⟨j, by omega⟩ ⟨k, by omega⟩
  simp only [hi, hj, hk, Option.getD_some, Fin.mk_lt_mk, hij, hjk, decide_true, Bool.true_and, isStruct_iff.2 ⟨u, n, x, hi⟩] at this
  exact inParent_iff.1 (this (inParent_iff.2 h))

/-- Finding: if a structure is declared before it is defined, only the first declaration is kept: it has no member, and its place is that of the declaration. -/
theorem C225_forward_refuted (u n : Str) (x y : Extent) (kids : List Node) : structs [.struct u n x [], .struct u n y kids] = [⟨u, n, x, []⟩] := by
  unfold structs
  simp [visitAll, visit]

end Verif.Refgen
