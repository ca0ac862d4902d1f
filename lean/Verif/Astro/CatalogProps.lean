import Verif.Astro.Catalog
import Mathlib.Data.List.Nodup
import Mathlib.Data.List.Range
import Mathlib.Tactic.Common
import Mathlib.Data.Rat.Defs
import Mathlib.Algebra.Order.Ring.Rat
/-!
# C114: merging catalogues
-/
namespace Verif.Catalog
open Verif

variable {P α : Type}

/-- the catalogues of a pool designate different sources of the pool by different indices -/
structure Cat.Ok (c : Cat) (ngal : Nat) : Prop where
  size : c.idi.length = c.idm.length
  bound : ∀ j ∈ c.idm, j < ngal
  nodup : c.idm.Nodup

/-- a consistent pool -/
structure Pool.Ok (p : Pool P) : Prop where
  npos : p.pos.length = p.ngal
  norigin : p.origin.length = p.ngal
  cats : ∀ c ∈ p.cats, c.Ok p.ngal

theorem at_ok {l : List α} {i : Nat} {a : α} : at_ l i = .ok a ↔ l[i]? = some a := by
  unfold at_; cases l[i]? <;> simp

theorem gather_ok {l : List α} {ids : List Nat} {r : List α} (h : gather l ids = .ok r) :
    r.length = ids.length ∧ ∀ k i : Nat, ids[k]? = some i → r[k]? = l[i]? ∧ i < l.length := by
  unfold gather at h
  induction ids generalizing r with
  | nil => cases h; exact ⟨rfl, by simp⟩
  | cons i ids ih =>
    rw [List.mapM_cons, Res.bind_eq_ok] at h
    obtain ⟨a, ha, h⟩ := h
    rw [Res.bind_eq_ok] at h
    obtain ⟨b, hb, hr⟩ := h
    cases hr
    obtain ⟨h1, h2⟩ := ih hb
    have hi : l[i]? = some a := at_ok.1 ha
    refine ⟨by simp [h1], fun k j hj => ?_⟩
    cases k with
    | zero =>
      simp only [List.getElem?_cons_zero, Option.some.injEq] at hj ⊢
      subst hj
      exact ⟨hi.symm, (List.getElem?_eq_some_iff.1 hi).1⟩
    | succ k => simpa using h2 k j (by simpa using hj)

theorem gather_range_id (l : List α) : gather l (List.range l.length) = .ok l := by
  unfold gather
  refine Res.mapM_getElem (by simp) fun i hi hr => ?_
  simp only [List.getElem_range]
  rw [List.getElem?_eq_getElem hr]

/-- source `i` of the catalogue and its closest source in the pool are mutually closest -/
def isMutual (xm : Xm) (i : Nat) : Bool := match xm.id[i]? with
  | some j => xm.rid[j]? == some i
  | none => false

theorem mutual_iff {xm : Xm} {i : Nat} : isMutual xm i = true ↔ ∃ j, xm.id[i]? = some j ∧ xm.rid[j]? = some i := by
  unfold isMutual; cases xm.id[i]? <;> simp

/-- the sources of the catalogue that get an index in the pool -/
def kept (noNew : Bool) (xm : Xm) (is : List Nat) : List Nat := if noNew then is.filter (isMutual xm) else is

/-- what the loop does with the sources `is` -/
theorem addLoop_spec (noNew : Bool) (xm : Xm) (csel : List P) (k : Nat) (is idm tsel : List Nat) (pos : List P) (origin : List Nat)
    (s' : List Nat × List Nat × List P × List Nat) (hnd : is.Nodup) (hr : xm.rid.length ≤ pos.length)
    (h : addLoop noNew xm csel k is (idm, tsel, pos, origin) = .ok s') :
    ∃ (m : List Nat) (new : List P), s' = (idm ++ m, tsel ++ (if noNew then kept noNew xm is else []), pos ++ new, origin ++ List.replicate new.length k) ∧
      (noNew = true → new = []) ∧ m.length = (kept noNew xm is).length ∧ m.Nodup ∧
      (∀ j ∈ m, (j < pos.length ∧ ∃ i ∈ is, xm.id[i]? = some j ∧ xm.rid[j]? = some i) ∨ (pos.length ≤ j ∧ j < pos.length + new.length)) ∧
      ∀ t i : Nat, (kept noNew xm is)[t]? = some i → ∃ j, m[t]? = some j ∧
        (isMutual xm i = true → xm.id[i]? = some j ∧ j < pos.length) ∧
        (isMutual xm i = false → pos.length ≤ j ∧ (pos ++ new)[j]? = csel[i]? ∧ j < pos.length + new.length) := by
  induction is generalizing idm tsel pos origin with
  | nil =>
    cases h
    refine ⟨[], [], by cases noNew <;> simp [kept], by simp, by cases noNew <;> simp [kept], by simp, by simp, ?_⟩
    intro t i hi
    cases noNew <;> simp [kept] at hi
  | cons i is ih =>
    rw [List.nodup_cons] at hnd
    obtain ⟨hni, hnd⟩ := hnd
    rw [addLoop] at h
    simp only [Res.bind_eq_ok] at h
    obtain ⟨j, hj, r, hrj, h⟩ := h
    rw [at_ok] at hj hrj
    have hjr : j < xm.rid.length := (List.getElem?_eq_some_iff.1 hrj).1
    by_cases hri : r = i
    · subst hri
      have hmut : isMutual xm r = true := mutual_iff.2 ⟨j, hj, hrj⟩
      rw [if_pos rfl] at h
      obtain ⟨m, new, e1, e2, e3, e4, e5, e6⟩ := ih _ _ _ _ hnd hr h
      have hk : kept noNew xm (r :: is) = r :: kept noNew xm is := by
        cases noNew <;> simp [kept, hmut]
      refine ⟨j :: m, new, ?_, e2, by simp [hk, e3], ?_, ?_, ?_⟩
      · rw [e1, hk]; cases noNew <;> simp
      · rw [List.nodup_cons]
        refine ⟨fun hm => ?_, e4⟩
        rcases e5 j hm with ⟨-, i', hi', g1, g2⟩ | ⟨g1, -⟩
        · rw [hrj] at g2; cases g2; exact hni hi'
        · omega
      · intro j' hj'
        rcases List.mem_cons.1 hj' with rfl | hj'
        · exact .inl ⟨by omega, r, by simp, hj, hrj⟩
        · rcases e5 j' hj' with ⟨g0, i', hi', g1, g2⟩ | g
          · exact .inl ⟨g0, i', by simp [hi'], g1, g2⟩
          · exact .inr g
      · intro t i' hi'
        rw [hk] at hi'
        cases t with
        | zero =>
          simp only [List.getElem?_cons_zero, Option.some.injEq] at hi' ⊢
          subst hi'
          exact ⟨j, rfl, fun _ => ⟨hj, by omega⟩, fun h0 => by rw [hmut] at h0; cases h0⟩
        | succ t => simpa using e6 t i' (by simpa using hi')
    · have hmut : isMutual xm i = false := by
        rw [Bool.eq_false_iff, Ne, mutual_iff]
        rintro ⟨j', g1, g2⟩
        rw [hj] at g1; cases g1
        rw [hrj] at g2; cases g2; exact hri rfl
      rw [if_neg hri] at h
      cases noNew with
      | true =>
        rw [if_pos rfl] at h
        obtain ⟨m, new, e1, e2, e3, e4, e5, e6⟩ := ih _ _ _ _ hnd hr h
        have hk : kept true xm (i :: is) = kept true xm is := by simp [kept, hmut]
        rw [hk]
        refine ⟨m, new, e1, e2, e3, e4, fun j' hj' => ?_, e6⟩
        rcases e5 j' hj' with ⟨g0, i', hi', g1, g2⟩ | g
        · exact .inl ⟨g0, i', by simp [hi'], g1, g2⟩
        · exact .inr g
      | false =>
        rw [if_neg (by simp)] at h
        simp only [Res.bind_eq_ok] at h
        obtain ⟨p, hp, h⟩ := h
        rw [at_ok] at hp
        obtain ⟨m, new, e1, e2, e3, e4, e5, e6⟩ := ih _ _ _ _ hnd (by simp; omega) h
        have hk : kept false xm (i :: is) = i :: kept false xm is := by simp [kept]
        have happ : pos ++ [p] ++ new = pos ++ p :: new := by simp
        rw [happ] at e1 e6
        simp only [List.length_append, List.length_singleton] at e5 e6
        refine ⟨pos.length :: m, p :: new, ?_, by simp, by simp [hk, e3], ?_, ?_, ?_⟩
        · rw [e1]; simp [List.replicate_succ]
        · rw [List.nodup_cons]
          refine ⟨fun hm => ?_, e4⟩
          rcases e5 _ hm with ⟨-, i', -, -, g2⟩ | ⟨g1, -⟩
          · have := (List.getElem?_eq_some_iff.1 g2).1; omega
          · omega
        · intro j' hj'
          rcases List.mem_cons.1 hj' with rfl | hj'
          · exact .inr ⟨le_rfl, by simp⟩
          · rcases e5 j' hj' with ⟨-, i', hi', g1, g2⟩ | ⟨g1, g2⟩
            · have := (List.getElem?_eq_some_iff.1 g2).1
              exact .inl ⟨by omega, i', by simp [hi'], g1, g2⟩
            · exact .inr ⟨by omega, by simp; omega⟩
        · intro t i' hi'
          rw [hk] at hi'
          cases t with
          | zero =>
            simp only [List.getElem?_cons_zero, Option.some.injEq] at hi' ⊢
            subst hi'
            refine ⟨pos.length, rfl, fun h0 => (by rw [hmut] at h0; cases h0), fun _ => ⟨le_rfl, ?_, by simp⟩⟩
            rw [hp]; simp
          | succ t =>
            obtain ⟨j', g1, g2, g3⟩ := e6 t i' (by simpa using hi')
            refine ⟨j', by simpa using g1, fun hm => ?_, fun hm => ?_⟩
            · obtain ⟨a1, -⟩ := g2 hm
              obtain ⟨j2, b1, b2⟩ := mutual_iff.1 hm
              rw [a1] at b1; cases b1
              have := (List.getElem?_eq_some_iff.1 b2).1
              exact ⟨a1, by omega⟩
            · obtain ⟨a1, a2, a3⟩ := g3 hm
              exact ⟨by omega, a2, by simp; omega⟩

/-- the calls that a user can make on a pool -/
inductive Reach (xmatch : List P → List P → Xm) : Pool P → Prop
  /-- a new pool (the value of `ngal` is not initialised, and is not used before it is set) -/
  | new : Reach xmatch ⟨0, [], [], []⟩
  | add (noNew : Bool) (cat : List P) (sel : List Nat) (p p' : Pool P) : Reach xmatch p → addCatalog xmatch noNew cat sel p = .ok p' → Reach xmatch p'
  | plain (p p' : Pool P) : Reach xmatch p → addPlain p = .ok p' → Reach xmatch p'

/-- the selection that is used: an empty one stands for the whole catalogue -/
def selection (cat : List P) (sel : List Nat) : List Nat := if sel = [] then List.range cat.length else sel

theorem addCatalog_inv {xmatch : List P → List P → Xm} {noNew : Bool} {cat : List P} {sel : List Nat} {p p' : Pool P}
    (hx : ∀ a b, (xmatch a b).rid.length = b.length) (hc : p.cats ≠ []) (hp : p.Ok) (h : addCatalog xmatch noNew cat sel p = .ok p') :
    ∃ (csel : List P) (m idi : List Nat) (new : List P), gather cat (selection cat sel) = .ok csel ∧
      gather (selection cat sel) (kept noNew (xmatch csel p.pos) (List.range (selection cat sel).length)) = .ok idi ∧
      p' = ⟨p.ngal + new.length, p.pos ++ new, p.origin ++ List.replicate new.length (p.cats.length + 1), p.cats ++ [⟨idi, m⟩]⟩ ∧
      (noNew = true → new = []) ∧ m.length = (kept noNew (xmatch csel p.pos) (List.range (selection cat sel).length)).length ∧ m.Nodup ∧
      (∀ j ∈ m, j < p.pos.length + new.length) ∧
      ∀ t i : Nat, (kept noNew (xmatch csel p.pos) (List.range (selection cat sel).length))[t]? = some i → ∃ j, m[t]? = some j ∧
        (isMutual (xmatch csel p.pos) i = true → (xmatch csel p.pos).id[i]? = some j ∧ j < p.pos.length) ∧
        (isMutual (xmatch csel p.pos) i = false → p.pos.length ≤ j ∧ (p.pos ++ new)[j]? = csel[i]? ∧ j < p.pos.length + new.length) := by
  unfold addCatalog at h
  dsimp only at h
  rw [if_neg hc] at h
  simp only [Res.bind_eq_ok] at h
  obtain ⟨csel, h1, ⟨idm, tsel, pos, origin⟩, h2, idi, h3, h4⟩ := h
  cases h4
  obtain ⟨m, new, e1, e2, e3, e4, e5, e6⟩ := addLoop_spec noNew _ csel _ _ _ _ _ _ _ List.nodup_range (by rw [hx]) h2
  cases e1
  refine ⟨csel, m, idi, new, h1, ?_, ?_, e2, e3, e4, ?_, e6⟩
  · rw [← h3]
    cases noNew <;> simp [kept, selection]
  · cases noNew with
    | true => simp [e2 rfl]
    | false => simp
  · intro j hj
    rcases e5 j hj with ⟨g, -⟩ | ⟨-, g⟩ <;> omega

theorem addCatalog_first {xmatch : List P → List P → Xm} {noNew : Bool} {cat : List P} {sel : List Nat} {p p' : Pool P}
    (hc : p.cats = []) (h : addCatalog xmatch noNew cat sel p = .ok p') :
    ∃ pos, gather cat (selection cat sel) = .ok pos ∧
      p' = ⟨(selection cat sel).length, pos, List.replicate (selection cat sel).length 1, [⟨selection cat sel, List.range (selection cat sel).length⟩]⟩ := by
  unfold addCatalog at h
  dsimp only at h
  rw [if_pos hc] at h
  simp only [Res.bind_eq_ok] at h
  obtain ⟨pos, h1, h2⟩ := h
  cases h2
  exact ⟨pos, h1, rfl⟩

/-- **C114** whatever catalogues are added or matched, in any order: the pool has one position and one origin for each of its `ngal` sources; in each
catalogue, the sources that are kept have different indices in the pool, all smaller than `ngal` -/
theorem C114_pool (xmatch : List P → List P → Xm) (hx : ∀ a b, (xmatch a b).rid.length = b.length) (p : Pool P) (h : Reach xmatch p) : p.Ok := by
  induction h with
  | new => exact ⟨rfl, rfl, by simp⟩
  | add noNew cat sel p p' _ h ih =>
    by_cases hc : p.cats = []
    · obtain ⟨pos, h1, rfl⟩ := addCatalog_first hc h
      refine ⟨(gather_ok h1).1, by simp, ?_⟩
      simp only [List.mem_singleton, forall_eq]
      exact ⟨by simp, by simp, List.nodup_range⟩
    · obtain ⟨csel, m, idi, new, h1, h2, rfl, e2, e3, e4, e5, e6⟩ := addCatalog_inv hx hc ih h
      have hn := ih.npos
      have hb : ∀ j ∈ m, j < p.ngal + new.length := fun j hj => by
        have := e5 j hj
        omega
      refine ⟨by simp [hn], by simp [ih.norigin], fun c hc' => ?_⟩
      rcases List.mem_append.1 hc' with hc' | hc'
      · obtain ⟨a1, a2, a3⟩ := ih.cats c hc'
        exact ⟨a1, fun j hj => Nat.lt_add_right _ (a2 j hj), a3⟩
      · rw [List.mem_singleton.1 hc']
        exact ⟨by rw [(gather_ok h2).1, e3], hb, e4⟩
  | plain p p' _ h ih =>
    unfold addPlain at h
    split at h
    · cases h
    · cases h
      refine ⟨ih.npos, ih.norigin, fun c hc => ?_⟩
      rcases List.mem_append.1 hc with hc | hc
      · exact ih.cats c hc
      · rw [List.mem_singleton.1 hc]
        exact ⟨by simp, by simp, List.nodup_range⟩

/-- **C114** `add_catalog` on a pool with at least one catalogue: the sources of the pool stay where they are, each selected source gets an
index: that of its closest source of the pool if they are mutually closest, and otherwise that of a new source of the pool, at its own
position and with the number of the catalogue as origin -/
theorem C114_add (xmatch : List P → List P → Xm) (hx : ∀ a b, (xmatch a b).rid.length = b.length) (cat : List P) (sel : List Nat) (p p' : Pool P)
    (hr : Reach xmatch p) (hc : p.cats ≠ []) (h : addCatalog xmatch false cat sel p = .ok p') :
    ∃ csel c, gather cat (selection cat sel) = .ok csel ∧ p'.cats = p.cats ++ [c] ∧ c.idi = selection cat sel ∧
      p.pos <+: p'.pos ∧ p.origin <+: p'.origin ∧
      ∀ t, t < (selection cat sel).length → ∃ j, c.idm[t]? = some j ∧
        (isMutual (xmatch csel p.pos) t = true → (xmatch csel p.pos).id[t]? = some j ∧ j < p.ngal) ∧
        (isMutual (xmatch csel p.pos) t = false → p.ngal ≤ j ∧ p'.pos[j]? = csel[t]? ∧ p'.origin[j]? = some (p.cats.length + 1)) := by
  have hok := C114_pool xmatch hx p hr
  obtain ⟨csel, m, idi, new, h1, h2, rfl, e2, e3, e4, e5, e6⟩ := addCatalog_inv hx hc hok h
  refine ⟨csel, ⟨idi, m⟩, h1, rfl, ?_, ⟨new, rfl⟩, ⟨_, rfl⟩, fun t ht => ?_⟩
  · simp only [kept, Bool.false_eq_true, if_false] at h2
    have := gather_range_id (selection cat sel)
    rw [h2] at this; cases this; rfl
  · obtain ⟨j, g1, g2, g3⟩ := e6 t t (by simp [kept, ht])
    have hn := hok.npos
    have ho := hok.norigin
    refine ⟨j, g1, fun hm => ?_, fun hm => ?_⟩
    · obtain ⟨a1, a2⟩ := g2 hm
      exact ⟨a1, by omega⟩
    · obtain ⟨a1, a2, a3⟩ := g3 hm
      refine ⟨by omega, a2, ?_⟩
      simp only
      rw [List.getElem?_append_right (by omega), List.getElem?_replicate, if_pos (by omega)]

/-- **C114** `match_catalog` on a pool with at least one catalogue: the pool keeps its sources, and exactly the selected sources that are mutually closest with a
source of the pool are kept, in order, with the index of this source -/
theorem C114_match (xmatch : List P → List P → Xm) (hx : ∀ a b, (xmatch a b).rid.length = b.length) (cat : List P) (sel : List Nat) (p p' : Pool P)
    (hr : Reach xmatch p) (hc : p.cats ≠ []) (h : addCatalog xmatch true cat sel p = .ok p') :
    ∃ csel c, gather cat (selection cat sel) = .ok csel ∧ p' = { p with cats := p.cats ++ [c] } ∧
      c.idi.map some = ((List.range (selection cat sel).length).filter (isMutual (xmatch csel p.pos))).map ((selection cat sel)[·]?) ∧
      c.idm.map some = ((List.range (selection cat sel).length).filter (isMutual (xmatch csel p.pos))).map ((xmatch csel p.pos).id[·]?) := by
  have hok := C114_pool xmatch hx p hr
  obtain ⟨csel, m, idi, new, h1, h2, rfl, e2, e3, e4, e5, e6⟩ := addCatalog_inv hx hc hok h
  have hnew := e2 rfl
  subst hnew
  simp only [kept, if_true] at h2 e3 e6
  refine ⟨csel, ⟨idi, m⟩, h1, by simp, ?_, ?_⟩
  · obtain ⟨g1, g2⟩ := gather_ok h2
    refine List.ext_getElem? fun t => ?_
    rw [List.getElem?_map, List.getElem?_map]
    cases hf : ((List.range (selection cat sel).length).filter (isMutual (xmatch csel p.pos)))[t]? with
    | none =>
      rw [List.getElem?_eq_none_iff] at hf
      rw [List.getElem?_eq_none (by simp only; omega)]; rfl
    | some i =>
      obtain ⟨a1, a2⟩ := g2 t i hf
      simp only at a1 ⊢
      simp [a1, List.getElem?_eq_getElem a2]
  · refine List.ext_getElem? fun t => ?_
    rw [List.getElem?_map, List.getElem?_map]
    cases hf : ((List.range (selection cat sel).length).filter (isMutual (xmatch csel p.pos)))[t]? with
    | none =>
      rw [List.getElem?_eq_none_iff] at hf
      rw [List.getElem?_eq_none (by simp only; omega)]; rfl
    | some i =>
      obtain ⟨j, a1, a2, -⟩ := e6 t i hf
      have hm : isMutual (xmatch csel p.pos) i = true := (List.mem_filter.1 (List.mem_of_getElem? hf)).2
      simp [a1, (a2 hm).1]

/-- **C114** when `qxmatch` returns nearest neighbours, a source of the catalogue and the source of the pool that share an index are nearest to
each other -/
theorem C114_nearest (xm : Xm) (dist : Nat → Nat → ℚ) (n1 n2 : Nat) (hid : ∀ i j, xm.id[i]? = some j → ∀ j' < n2, dist i j ≤ dist i j')
    (hrid : ∀ j i, xm.rid[j]? = some i → ∀ i' < n1, dist i j ≤ dist i' j) (i : Nat) (h : isMutual xm i = true) :
    ∃ j, xm.id[i]? = some j ∧ (∀ j' < n2, dist i j ≤ dist i j') ∧ ∀ i' < n1, dist i j ≤ dist i' j := by
  obtain ⟨j, h1, h2⟩ := mutual_iff.1 h
  exact ⟨j, h1, hid i j h1, hrid j i h2⟩

theorem scatter_spec (idm : List Nat) (v l r : List α) (h : scatter idm v l = .ok r) :
    v.length = idm.length ∧ r.length = l.length ∧ (∀ j, j ∉ idm → r[j]? = l[j]?) ∧
      (idm.Nodup → ∀ t j : Nat, idm[t]? = some j → r[j]? = v[t]?) := by
  induction idm generalizing v l with
  | nil =>
    cases v with
    | nil => cases h; exact ⟨rfl, rfl, fun _ _ => rfl, by simp⟩
    | cons => cases h
  | cons i idm ih =>
    cases v with
    | nil => cases h
    | cons a v =>
      rw [scatter] at h
      split at h
      · rename_i hi
        obtain ⟨e1, e2, e3, e4⟩ := ih v _ h
        rw [List.length_set] at e2
        refine ⟨by simp [e1], e2, fun j hj => ?_, fun hnd t j ht => ?_⟩
        · rw [List.mem_cons, not_or] at hj
          rw [e3 j hj.2, List.getElem?_set_ne (Ne.symm hj.1)]
        · rw [List.nodup_cons] at hnd
          cases t with
          | zero =>
            simp only [List.getElem?_cons_zero, Option.some.injEq] at ht ⊢
            subst ht
            rw [e3 i hnd.1, List.getElem?_set_self hi]
          | succ t => simpa using e4 hnd.2 t j (by simpa using ht)
      · cases h

/-- **C114** `merge` gives a column of the pool: at the index of each source that is kept, the value of this source in the catalogue, and the default
value elsewhere -/
theorem C114_merge (xmatch : List P → List P → Xm) (hx : ∀ a b, (xmatch a b).rid.length = b.length) (p : Pool P) (hr : Reach xmatch p) (c : Cat)
    (hc : c ∈ p.cats) (out : List α) (def_ : α) (r : List α) (h : merge p c [] out def_ = .ok r) :
    r.length = p.ngal ∧ (∀ t i j : Nat, c.idi[t]? = some i → c.idm[t]? = some j → r[j]? = out[i]? ∧ i < out.length) ∧
      ∀ j, j < p.ngal → j ∉ c.idm → r[j]? = some def_ := by
  unfold merge at h
  simp only [Res.check_pos, Res.ok_bind, Res.bind_eq_ok] at h
  obtain ⟨v, hv, h⟩ := h
  obtain ⟨g1, g2⟩ := gather_ok hv
  obtain ⟨e1, e2, e3, e4⟩ := scatter_spec _ _ _ _ h
  rw [List.length_replicate] at e2
  refine ⟨e2, fun t i j hi hj => ?_, fun j hj hn => ?_⟩
  · obtain ⟨a1, a2⟩ := g2 t i hi
    exact ⟨by rw [e4 ((C114_pool xmatch hx p hr).cats c hc).nodup t j hj, a1], a2⟩
  · rw [e3 j hn, List.getElem?_replicate, if_pos hj]

theorem scatter_ok (idm : List Nat) (v l : List α) (h1 : v.length = idm.length) (h2 : ∀ j ∈ idm, j < l.length) : ∃ r, scatter idm v l = .ok r := by
  induction idm generalizing v l with
  | nil =>
    cases v with
    | nil => exact ⟨l, rfl⟩
    | cons => simp at h1
  | cons i idm ih =>
    cases v with
    | nil => simp at h1
    | cons a v =>
      rw [scatter, if_pos (h2 i (by simp))]
      exact ih v _ (by simpa using h1) fun j hj => by simpa using h2 j (by simp [hj])

/-- **C114** `merge` succeeds exactly when the destination is empty and the catalogue has a value for each of its sources -/
theorem C114_merge_returns (xmatch : List P → List P → Xm) (hx : ∀ a b, (xmatch a b).rid.length = b.length) (p : Pool P) (hr : Reach xmatch p)
    (c : Cat) (hc : c ∈ p.cats) (in_ out : List α) (def_ : α) :
    (∃ r, merge p c in_ out def_ = .ok r) ↔ in_ = [] ∧ ∀ i ∈ c.idi, i < out.length := by
  constructor
  · rintro ⟨r, h⟩
    unfold merge at h
    simp only [Res.bind_eq_ok] at h
    obtain ⟨_, h0, v, hv, -⟩ := h
    refine ⟨?_, fun i hi => ?_⟩
    · by_contra hne
      rw [Res.check_neg hne] at h0
      cases h0
    · obtain ⟨t, ht⟩ := List.mem_iff_getElem?.1 hi
      exact ((gather_ok hv).2 t i ht).2
  · rintro ⟨rfl, h⟩
    have hg : ∃ v, gather out c.idi = .ok v := by
      unfold gather
      generalize c.idi = l at h
      induction l with
      | nil => exact ⟨[], rfl⟩
      | cons i l ih =>
        obtain ⟨v, hv⟩ := ih fun k hk => h k (by simp [hk])
        rw [List.mapM_cons, List.getElem?_eq_getElem (h i (by simp))]
        simp only [Res.ok_bind, hv]
        exact ⟨_, rfl⟩
    obtain ⟨v, hv⟩ := hg
    obtain ⟨s1, s2, s3⟩ := (C114_pool xmatch hx p hr).cats c hc
    unfold merge
    simp only [Res.check_pos, Res.ok_bind, hv]
    exact scatter_ok _ _ _ (by rw [(gather_ok hv).1, s1]) (by simpa using s2)

/-- **C114** `merge_flux` adds columns at the end of the table of fluxes: each source of the pool keeps its previous fluxes, followed by those of the catalogue,
or by undefined values if it is not in the catalogue -/
theorem C114_flux (xmatch : List P → List P → Xm) (hx : ∀ a b, (xmatch a b).rid.length = b.length) (p : Pool P) (hr : Reach xmatch p) (c : Cat)
    (hc : c ∈ p.cats) (poolFlux flux err : List (List α)) (nband bands : Nat) (nan : α) (r : List (List α))
    (h : mergeFlux p c poolFlux flux err nband bands nan = .ok r) :
    nband = bands ∧ r.length = p.ngal ∧ ∀ j, j < p.ngal → ∃ old, (poolFlux = [] → old = []) ∧ (poolFlux ≠ [] → poolFlux[j]? = some old) ∧
      (∀ t i : Nat, c.idi[t]? = some i → c.idm[t]? = some j → ∃ row, flux[i]? = some row ∧ row.length = nband ∧ r[j]? = some (old ++ row)) ∧
      (j ∉ c.idm → r[j]? = some (old ++ List.replicate nband nan)) := by
  unfold mergeFlux at h
  simp only [Res.bind_eq_ok] at h
  obtain ⟨_, h1, _, -, _, h3, t, ht, h⟩ := h
  have hband : nband = bands := by
    by_contra hne
    rw [Res.check_neg hne] at h3
    cases h3
  have hrow : ∀ r ∈ flux, r.length = nband := by
    by_contra hne
    rw [Res.check_neg hne] at h1
    cases h1
  obtain ⟨e1, e2, e3⟩ := C114_merge xmatch hx p hr c hc flux _ t ht
  unfold appendColumns at h
  have key : r.length = p.ngal ∧ ∀ j, j < p.ngal → ∃ old, (poolFlux = [] → old = []) ∧ (poolFlux ≠ [] → poolFlux[j]? = some old) ∧
      ∀ row, t[j]? = some row → r[j]? = some (old ++ row) := by
    by_cases h0 : poolFlux = []
    · rw [if_pos h0] at h
      cases h
      exact ⟨e1, fun j _ => ⟨[], fun _ => rfl, fun hne => absurd h0 hne, fun row hrow => by simpa using hrow⟩⟩
    · rw [if_neg h0] at h
      simp only [Res.bind_eq_ok] at h
      obtain ⟨_, h4, h⟩ := h
      have hl : poolFlux.length = t.length := by
        by_contra hne
        rw [Res.check_neg hne] at h4
        cases h4
      cases h
      refine ⟨by simp [hl, e1], fun j hj => ?_⟩
      have hj' : j < poolFlux.length := by omega
      refine ⟨poolFlux[j], fun h => absurd h h0, fun _ => List.getElem?_eq_getElem hj', fun row hrow => ?_⟩
      rw [List.getElem?_zipWith, List.getElem?_eq_getElem hj', hrow]
  refine ⟨hband, key.1, fun j hj => ?_⟩
  obtain ⟨old, k1, k2, k3⟩ := key.2 j hj
  refine ⟨old, k1, k2, fun t' i hi hm => ?_, fun hn => k3 _ (e3 j hj hn)⟩
  obtain ⟨a1, a2⟩ := e2 t' i j hi hm
  exact ⟨flux[i], List.getElem?_eq_getElem a2, hrow _ (List.getElem_mem a2), k3 _ (by rw [a1, List.getElem?_eq_getElem a2])⟩

/-- **C114** fluxes cannot be merged before all the catalogues are added: if a catalogue brought new sources since the fluxes of another one were
merged, `merge_flux` aborts -/
theorem C114_flux_refuted (p p' : Pool P) (c : Cat) (poolFlux flux err : List (List α)) (nband bands : Nat) (nan : α)
    (hold : poolFlux.length = p.ngal) (hpos : 0 < p.ngal) (hnew : p.ngal < p'.ngal) :
    ∀ r, mergeFlux p' c poolFlux flux err nband bands nan ≠ .ok r := by
  intro r h
  unfold mergeFlux at h
  simp only [Res.bind_eq_ok] at h
  obtain ⟨-, -, -, -, -, -, t, ht, h⟩ := h
  unfold merge at ht
  simp only [Res.check_pos, Res.ok_bind, Res.bind_eq_ok] at ht
  obtain ⟨v, -, ht⟩ := ht
  have hl := (scatter_spec _ _ _ _ ht).2.1
  rw [List.length_replicate] at hl
  unfold appendColumns at h
  rw [if_neg (by intro h0; rw [h0] at hold; simp at hold; omega), Res.check_neg (by omega)] at h
  cases h

/-! A first catalogue at the positions 10, 20, 30, and a second one at 31, 12 and 50: the first source of the second catalogue is the third of the pool, its
second source the first of the pool, and its third source is new. -/

/-- a brute-force search on a line -/
def lineMatch (a b : List Int) : Xm :=
  let near (x : Int) (l : List Int) : Nat := ((List.range l.length).foldl (fun best k =>
    if (l.getD k 0 - x).natAbs < (l.getD best 0 - x).natAbs then k else best) 0)
  ⟨a.map fun x => near x b, b.map fun y => near y a⟩

example (a b : List Int) : (lineMatch a b).rid.length = b.length := by simp [lineMatch]

example : (((addCatalog lineMatch false [10, 20, 30] [] ⟨0, [], [], []⟩).bind (addCatalog lineMatch false [31, 12, 50] [])).map
    fun p => (p.ngal, p.pos, p.origin, p.cats.map fun c => (c.idi, c.idm))) =
    .ok (4, [10, 20, 30, 50], [1, 1, 1, 2], [([0, 1, 2], [0, 1, 2]), ([0, 1, 2], [2, 0, 3])]) := by decide +kernel

example : (((addCatalog lineMatch false [10, 20, 30] [] ⟨0, [], [], []⟩).bind (addCatalog lineMatch true [31, 12, 50] [])).map
    fun p => (p.ngal, p.pos, p.origin, p.cats.map fun c => (c.idi, c.idm))) =
    .ok (3, [10, 20, 30], [1, 1, 1], [([0, 1, 2], [0, 1, 2]), ([0, 1], [2, 0])]) := by decide +kernel

example : merge (P := Int) ⟨4, [10, 20, 30, 50], [1, 1, 1, 2], []⟩ ⟨[0, 1, 2], [2, 0, 3]⟩ [] [7, 8, 9] 0 = .ok [8, 0, 7, 9] := by decide +kernel

example : mergeFlux (P := Int) ⟨4, [10, 20, 30, 50], [1, 1, 1, 2], []⟩ ⟨[0, 1, 2], [2, 0, 3]⟩ [[1], [2], [3], [4]] [[7, 70], [8, 80], [9, 90]] [] 2 2 0 =
    .ok [[1, 8, 80], [2, 0, 0], [3, 7, 70], [4, 9, 90]] := by decide +kernel

end Verif.Catalog
