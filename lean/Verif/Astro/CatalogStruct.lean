import Verif.Astro.CatalogProps
/-!
# Merging structures of columns: `catalog_t::merge` on structures (C237)

The members of the structures are vectors; nested structures are left out. A type is a value of `T`, and the vectors of all types hold values of `α`
(rows, for vectors of several dimensions).
-/
namespace Verif.Catalog
open Verif

variable {P α T N : Type} [DecidableEq T] [DecidableEq N]

/-! ### Model -/

/-- a member of a structure -/
structure Member (N T α : Type) where
  name : N
  type : T
  val : List α
deriving DecidableEq

/-- `catalog_t::merge` of a scalar into a column (catalog_merge.hpp:313-318): `in[idm] = out` -/
def mergeScalar (pool : Pool P) (c : Cat) (in_ : List α) (out def_ : α) : Res (List α) := do
  Res.check (in_ = [])
  scatter c.idm (List.replicate c.idm.length out) (List.replicate pool.ngal def_)

/-- `do_catalog_merge_run` for one member of the target (catalog_merge.hpp:356-376): the first operator is chosen when the types are the same, the second one otherwise -/
def mergeMember (pool : Pool P) (c : Cat) (def_ : α) (m n : Member N T α) : Res (Member N T α) :=
  if m.type = n.type then
    if m.name = n.name then do
      let v ← merge pool c n.val m.val def_
      .ok { n with val := v }
    else .ok n
  else do
    Res.check (m.name ≠ n.name)
    .ok n

/-- `catalog_t::merge` for structures (catalog_merge.hpp:408-418, 427-435): each member of `out` is shown to each member of `in` -/
def mergeStruct (pool : Pool P) (c : Cat) (def_ : α) : List (Member N T α) → List (Member N T α) → Res (List (Member N T α))
  | in_, [] => .ok in_
  | in_, m :: out => do
    let in_ ← in_.mapM (mergeMember pool c def_ m)
    mergeStruct pool c def_ in_ out

/-! ### C237 -/

/-- what becomes of the member `n` of the target: the member `m` of the source with its name, if there is one, gives its values -/
def Merged (pool : Pool P) (c : Cat) (def_ : α) (out : List (Member N T α)) (n n' : Member N T α) : Prop :=
  n'.name = n.name ∧ n'.type = n.type ∧
  ((∃ m ∈ out, m.name = n.name ∧ m.type = n.type ∧ n.val = [] ∧ n'.val.length = pool.ngal ∧
      (∀ t i j : Nat, c.idi[t]? = some i → c.idm[t]? = some j → n'.val[j]? = m.val[i]? ∧ i < m.val.length) ∧
      ∀ j, j < pool.ngal → j ∉ c.idm → n'.val[j]? = some def_) ∨
   ((∀ m ∈ out, m.name ≠ n.name) ∧ n'.val = n.val))

theorem mapM_forall2 {A B : Type} {f : A → Res B} {l : List A} {r : List B} (h : l.mapM f = .ok r) : List.Forall₂ (fun a b => f a = .ok b) l r := by
  induction l generalizing r with
  | nil => cases h; exact .nil
  | cons a l ih =>
    rw [List.mapM_cons, Res.bind_eq_ok] at h
    obtain ⟨b, hb, h⟩ := h
    rw [Res.bind_eq_ok] at h
    obtain ⟨s, hs, h⟩ := h
    cases h
    exact .cons hb (ih hs)

theorem mergeMember_name (pool : Pool P) (c : Cat) (def_ : α) (m n n' : Member N T α) (h : mergeMember pool c def_ m n = .ok n') :
    n'.name = n.name ∧ n'.type = n.type ∧
    ((m.name = n.name ∧ m.type = n.type ∧ merge pool c n.val m.val def_ = .ok n'.val) ∨ (m.name ≠ n.name ∧ n' = n)) := by
  unfold mergeMember at h
  split at h
  · rename_i ht
    split at h
    · rename_i hn
      rw [Res.bind_eq_ok] at h
      obtain ⟨v, hv, h⟩ := h
      cases h
      exact ⟨rfl, rfl, .inl ⟨hn, ht, hv⟩⟩
    · rename_i hn
      cases h
      exact ⟨rfl, rfl, .inr ⟨hn, rfl⟩⟩
  · by_cases hn : m.name = n.name
    · rw [Res.check_neg (by simpa using hn)] at h; cases h
    · rw [Res.check_pos hn, Res.ok_bind] at h
      cases h
      exact ⟨rfl, rfl, .inr ⟨hn, rfl⟩⟩

theorem merge_in_nil {pool : Pool P} {c : Cat} {in_ out : List α} {def_ : α} {r : List α} (h : merge pool c in_ out def_ = .ok r) : in_ = [] := by
  unfold merge at h
  by_contra hne
  rw [Res.check_neg hne] at h
  cases h

/-- **C237** Merging a structure into another one, for a catalogue of a reachable pool: each member of the target whose name is also in the source gets the
values of the sources at their indices in the pool and the default elsewhere; the other members are not changed; the names, types and order stay. -/
theorem C237_struct (xmatch : List P → List P → Xm) (hx : ∀ a b, (xmatch a b).rid.length = b.length) (p : Pool P) (hr : Reach xmatch p) (c : Cat)
    (hc : c ∈ p.cats) (def_ : α) (in_ out res : List (Member N T α)) (hnd : (out.map (·.name)).Nodup)
    (h : mergeStruct p c def_ in_ out = .ok res) : List.Forall₂ (Merged p c def_ out) in_ res := by
  induction out generalizing in_ with
  | nil =>
    cases h
    rw [List.forall₂_same]
    exact fun n _ => ⟨rfl, rfl, .inr ⟨by simp, rfl⟩⟩
  | cons m out ih =>
    rw [mergeStruct, Res.bind_eq_ok] at h
    obtain ⟨mid, hm, h⟩ := h
    rw [List.map_cons, List.nodup_cons] at hnd
    have h2 := ih mid hnd.2 h
    have h1 := mapM_forall2 hm
    clear ih h hm
    induction h1 generalizing res with
    | nil => cases h2; exact .nil
    | @cons n n1 l l1 hn _ ihl =>
      rcases h2 with _ | ⟨g, h2⟩
      rename_i n2 l2
      refine .cons ?_ (ihl _ h2)
      obtain ⟨a1, a2, a3⟩ := mergeMember_name p c def_ m n n1 hn
      obtain ⟨b1, b2, b3⟩ := g
      refine ⟨b1.trans a1, b2.trans a2, ?_⟩
      rcases a3 with ⟨c1, c2, c3⟩ | ⟨c1, rfl⟩
      · have hnone : ∀ m' ∈ out, m'.name ≠ n1.name := by
          intro m' hm' he
          exact hnd.1 (List.mem_map.2 ⟨m', hm', by rw [he, a1, c1]⟩)
        rcases b3 with ⟨m', hm', e, _⟩ | ⟨_, e⟩
        · exact absurd e (hnone m' hm')
        · have hnil := merge_in_nil c3
          rw [hnil] at c3
          obtain ⟨d1, d2, d3⟩ := C114_merge xmatch hx p hr c hc m.val def_ n1.val c3
          left
          exact ⟨m, by simp, c1, c2, hnil, by rw [e, d1], by rw [e]; exact d2, by rw [e]; exact d3⟩
      · rcases b3 with ⟨m', hm', e⟩ | ⟨e1, e2⟩
        · exact .inl ⟨m', by simp [hm'], e⟩
        · refine .inr ⟨?_, e2⟩
          intro m' hm'
          rcases List.mem_cons.1 hm' with rfl | hm'
          · exact c1
          · exact e1 m' hm'

/-- **C237** The merge stops the program when a column of the target has the name of a column of the source and another type, when it was
filled before, or when the source lacks a value; it returns in all other cases. -/
theorem C237_returns (xmatch : List P → List P → Xm) (hx : ∀ a b, (xmatch a b).rid.length = b.length) (p : Pool P) (hr : Reach xmatch p) (c : Cat)
    (hc : c ∈ p.cats) (def_ : α) (in_ out : List (Member N T α)) (hnd : (out.map (·.name)).Nodup)
    (h : ∀ m ∈ out, ∀ n ∈ in_, m.name = n.name → m.type = n.type ∧ n.val = [] ∧ ∀ i ∈ c.idi, i < m.val.length) :
    ∃ res, mergeStruct p c def_ in_ out = .ok res := by
  induction out generalizing in_ with
  | nil => exact ⟨in_, rfl⟩
  | cons m out ih =>
    rw [List.map_cons, List.nodup_cons] at hnd
    have hstep : ∀ n ∈ in_, ∃ n', mergeMember p c def_ m n = .ok n' := by
      intro n hn
      by_cases hnn : m.name = n.name
      · obtain ⟨t1, t2, t3⟩ := h m (by simp) n hn hnn
        obtain ⟨v, hv⟩ := (C114_merge_returns xmatch hx p hr c hc n.val m.val def_).2 ⟨t2, t3⟩
        exact ⟨_, by unfold mergeMember; rw [if_pos t1, if_pos hnn, hv, Res.ok_bind]⟩
      · unfold mergeMember
        by_cases ht : m.type = n.type
        · exact ⟨n, by rw [if_pos ht, if_neg hnn]⟩
        · exact ⟨n, by rw [if_neg ht, Res.check_pos hnn]; rfl⟩
    have hmid : ∃ mid, in_.mapM (mergeMember p c def_ m) = .ok mid := by
      clear h ih
      induction in_ with
      | nil => exact ⟨[], rfl⟩
      | cons n l ihl =>
        obtain ⟨n', hn'⟩ := hstep n (by simp)
        obtain ⟨l', hl'⟩ := ihl fun k hk => hstep k (by simp [hk])
        exact ⟨n' :: l', by rw [List.mapM_cons, hn', Res.ok_bind, hl']; rfl⟩
    obtain ⟨mid, hmid⟩ := hmid
    rw [mergeStruct, hmid, Res.ok_bind]
    refine ih mid hnd.2 ?_
    intro m' hm' n' hn' he
    have hf := mapM_forall2 hmid
    obtain ⟨n, hn, hnn⟩ : ∃ n ∈ in_, mergeMember p c def_ m n = .ok n' := by
      clear h ih hstep hmid
      induction hf with
      | nil => simp at hn'
      | cons a _ ihf =>
        rcases List.mem_cons.1 hn' with rfl | hn'
        · exact ⟨_, by simp, a⟩
        · obtain ⟨n, hn, e⟩ := ihf hn'
          exact ⟨n, by simp [hn], e⟩
    obtain ⟨a1, a2, a3⟩ := mergeMember_name p c def_ m n n' hnn
    rcases a3 with ⟨c1, _⟩ | ⟨_, rfl⟩
    · exact absurd (List.mem_map.2 ⟨m', hm', by rw [he, a1, c1]⟩) hnd.1
    · exact h m' (by simp [hm']) n' hn he

/-- **C237** A wrong type, a column that was filled before, or a missing value is never merged. -/
theorem C237_stops (p : Pool P) (c : Cat) (def_ : α) (in_ out res : List (Member N T α)) (h : mergeStruct p c def_ in_ out = .ok res)
    (hnd : (out.map (·.name)).Nodup) (m : Member N T α) (hm : m ∈ out) (n : Member N T α) (hn : n ∈ in_) (he : m.name = n.name) :
    m.type = n.type ∧ n.val = [] ∧ ∀ i ∈ c.idi, i < m.val.length := by
  induction out generalizing in_ n with
  | nil => simp at hm
  | cons m0 out ih =>
    rw [mergeStruct, Res.bind_eq_ok] at h
    obtain ⟨mid, hmid, h⟩ := h
    rw [List.map_cons, List.nodup_cons] at hnd
    have hf := mapM_forall2 hmid
    obtain ⟨n', hn', e⟩ : ∃ n' ∈ mid, mergeMember p c def_ m0 n = .ok n' := by
      clear h ih hmid
      induction hf with
      | nil => simp at hn
      | cons a _ ihf =>
        rcases List.mem_cons.1 hn with rfl | hn
        · exact ⟨_, by simp, a⟩
        · obtain ⟨n', hn', e⟩ := ihf hn
          exact ⟨n', by simp [hn'], e⟩
    obtain ⟨a1, a2, a3⟩ := mergeMember_name p c def_ m0 n n' e
    rcases List.mem_cons.1 hm with rfl | hm
    · rcases a3 with ⟨_, c2, c3⟩ | ⟨c1, _⟩
      · refine ⟨c2, merge_in_nil c3, fun i hi => ?_⟩
        unfold merge at c3
        simp only [Res.bind_eq_ok] at c3
        obtain ⟨_, _, v, hv, _⟩ := c3
        obtain ⟨t, ht⟩ := List.mem_iff_getElem?.1 hi
        exact ((gather_ok hv).2 t i ht).2
      · exact absurd he c1
    · rcases a3 with ⟨c1, _⟩ | ⟨_, rfl⟩
      · exact absurd (List.mem_map.2 ⟨m, hm, by rw [he, c1]⟩) hnd.1
      · exact ih mid h hnd.2 hm n' hn' he

omit [DecidableEq T] [DecidableEq N] in
/-- **C237** A scalar is given to all the sources of the catalogue; the others get the default. -/
theorem C237_scalar (xmatch : List P → List P → Xm) (hx : ∀ a b, (xmatch a b).rid.length = b.length) (p : Pool P) (hr : Reach xmatch p) (c : Cat)
    (hc : c ∈ p.cats) (out def_ : α) : ∃ r, mergeScalar p c [] out def_ = .ok r ∧ r.length = p.ngal ∧
      (∀ j ∈ c.idm, r[j]? = some out) ∧ ∀ j, j < p.ngal → j ∉ c.idm → r[j]? = some def_ := by
  have hok := (C114_pool xmatch hx p hr).cats c hc
  obtain ⟨r, h⟩ := scatter_ok c.idm (List.replicate c.idm.length out) (List.replicate p.ngal def_) (by simp)
    (fun j hj => by simpa using hok.bound j hj)
  obtain ⟨e1, e2, e3, e4⟩ := scatter_spec _ _ _ _ h
  refine ⟨r, by unfold mergeScalar; rw [Res.check_pos rfl, Res.ok_bind]; exact h, by simpa using e2, ?_, ?_⟩
  · intro j hj
    obtain ⟨t, ht⟩ := List.mem_iff_getElem?.1 hj
    rw [e4 hok.nodup t j ht, List.getElem?_replicate, if_pos (List.getElem?_eq_some_iff.1 ht).1]
  · intro j hj hn
    rw [e3 j hn, List.getElem?_replicate, if_pos hj]

/-- a structure of three columns, merged from one that has two of them in another order and a column of its own -/
def exPool : Pool ℚ := ⟨3, [1, 2, 3], [1, 1, 2], [⟨[0, 1], [0, 1]⟩, ⟨[1, 0], [1, 2]⟩]⟩

example : mergeStruct exPool ⟨[1, 0], [1, 2]⟩ (0 : ℚ) [⟨"z", 1, []⟩, ⟨"m", 1, []⟩, ⟨"id", 2, [7]⟩] [⟨"m", 1, [10, 20]⟩, ⟨"x", 1, [5, 6]⟩, ⟨"z", 1, [3, 4]⟩] =
    .ok [⟨"z", 1, [0, 4, 3]⟩, ⟨"m", 1, [0, 20, 10]⟩, ⟨"id", 2, [7]⟩] := by decide +kernel

example : mergeStruct exPool ⟨[1, 0], [1, 2]⟩ (0 : ℚ) [⟨"z", 1, []⟩] [⟨"z", 2, [3, 4]⟩] = .abort := by decide +kernel

example : mergeScalar exPool ⟨[1, 0], [1, 2]⟩ [] (8 : ℚ) 0 = .ok [0, 8, 8] := by decide +kernel

end Verif.Catalog
