import Verif.Core.View
/-!
# Properties C07, C74: assignment through views
-/
namespace Verif.Core.View
open Verif
variable {α : Type}

/-! ## specification -/

/-- The layout of all vectors: `own id` are the addresses owned by vector `id`. -/
structure Layout (own : Nat → List Nat) : Prop where
  disjoint : ∀ p q, p ≠ q → ∀ a ∈ own p, a ∉ own q
  nodup : ∀ p, (own p).Nodup

/-- A modifiable view or a vector whose bookkeeping is right: the recorded parent is the vector
that owns the addresses, and the elements are not `const`. -/
def Tracked (own : Nat → List Nat) : Operand → Prop
  | .vec id as => as = own id
  | .view p cst as => cst = false ∧ ∀ a ∈ as, a ∈ own p

/-- the vector owning the addresses of a tracked operand -/
def owner : Operand → Nat
  | .vec id _ => id
  | .view p _ _ => p

/-! ## lemmas -/

theorem writeValues_other (f : α → α → α) (as : List Nat) (ts : List α) (m : Mem α) (x : Nat)
    (h : x ∉ as) : writeValues f as ts m x = m x := by
  induction as generalizing ts m with
  | nil => simp [writeValues]
  | cons a as ih =>
    rw [List.mem_cons, not_or] at h
    cases ts with
    | nil => simp [writeValues]
    | cons t ts => rw [writeValues, ih _ _ h.2, Function.update_of_ne h.1]

theorem writeDirect_disjoint (f : α → α → α) (as bs : List Nat) (m : Mem α)
    (h : ∀ a ∈ as, a ∉ bs) : writeDirect f as bs m = writeValues f as (bs.map m) m := by
  have key : ∀ (as bs : List Nat) (m m0 : Mem α), (∀ b ∈ bs, m b = m0 b) → (∀ a ∈ as, a ∉ bs) →
      writeDirect f as bs m = writeValues f as (bs.map m0) m := by
    intro as
    induction as with
    | nil => intro bs m m0 _ _; simp [writeDirect, writeValues]
    | cons a as ih =>
      intro bs m m0 hm h
      cases bs with
      | nil => simp [writeDirect, writeValues]
      | cons b bs =>
        simp only [writeDirect, List.map_cons, writeValues]
        rw [hm b (by simp)]
        apply ih
        · intro c hc
          have : c ≠ a := by rintro rfl; exact h c (by simp) (by simp [hc])
          rw [Function.update_of_ne this]; exact hm c (by simp [hc])
        · intro c hc hcb; exact h c (by simp [hc]) (by simp [hcb])
  exact key as bs m m (fun _ _ => rfl) h

theorem writeDirect_self (f : α → α → α) (as : List Nat) (m : Mem α) (h : as.Nodup) :
    writeDirect f as as m = writeValues f as (as.map m) m := by
  have key : ∀ (as : List Nat) (m m0 : Mem α), as.Nodup → (∀ a ∈ as, m a = m0 a) →
      writeDirect f as as m = writeValues f as (as.map m0) m := by
    intro as
    induction as with
    | nil => intro m m0 _ _; simp [writeDirect, writeValues]
    | cons a as ih =>
      intro m m0 hn hm
      rw [List.nodup_cons] at hn
      simp only [writeDirect, List.map_cons, writeValues]
      rw [hm a (by simp)]
      apply ih _ _ hn.2
      intro c hc
      have : c ≠ a := by rintro rfl; exact hn.1 hc
      rw [Function.update_of_ne this]; exact hm c (by simp [hc])
  exact key as m m h fun _ _ => rfl

theorem writeValues_get (f : α → α → α) (as : List Nat) (ts : List α) (m : Mem α)
    (hn : as.Nodup) (i : Nat) (a : Nat) (t : α) (ha : as[i]? = some a) (ht : ts[i]? = some t) :
    writeValues f as ts m a = f (m a) t := by
  induction as generalizing ts m i with
  | nil => simp at ha
  | cons b as ih =>
    rw [List.nodup_cons] at hn
    cases ts with
    | nil => simp at ht
    | cons u ts =>
      cases i with
      | zero =>
        simp only [List.getElem?_cons_zero, Option.some.injEq] at ha ht
        subst ha; subst ht
        rw [writeValues, writeValues_other _ _ _ _ _ hn.1]; simp
      | succ i =>
        simp only [List.getElem?_cons_succ] at ha ht
        rw [writeValues, ih _ _ hn.2 i ha ht]
        have : a ≠ b := by rintro rfl; exact hn.1 (List.mem_of_getElem? ha)
        rw [Function.update_of_ne this]

/-! ## C07 -/

/-- C07: when both sides are vectors or modifiable views with correct parents, (compound)
assignment is the same as first copying the right-hand side; different sizes abort. -/
theorem C07_snapshot (own : Nat → List Nat) (hl : Layout own) (f : α → α → α) (dst src : Operand)
    (hd : Tracked own dst) (hs : Tracked own src) (m : Mem α) :
    assign f dst src m =
      if dst.addrs.length = src.addrs.length then
        .ok (writeValues f dst.addrs (src.addrs.map m) m)
      else .abort := by
  unfold assign
  by_cases h1 : dst.addrs.length = src.addrs.length
  · rw [if_pos h1, if_pos h1]
    by_cases h2 : viewSame dst src = true
    · rw [if_pos h2]
    · rw [if_neg h2]
      congr 1
      have sub : ∀ o : Operand, Tracked own o → ∀ a ∈ o.addrs, a ∈ own (owner o) := by
        intro o ho a ha
        cases o with
        | vec id as => simp only [Tracked, Operand.addrs, owner] at *; rwa [← ho]
        | view p c as => exact ho.2 a ha
      by_cases h3 : owner dst = owner src
      · -- both vectors, the same one
        cases dst with
        | vec p as =>
          cases src with
          | vec q bs =>
            simp only [owner] at h3
            subst h3
            simp only [Tracked] at hd hs
            simp only [Operand.addrs, hd, hs]
            exact writeDirect_self f _ m (hl.nodup p)
          | view q c bs =>
            simp only [owner] at h3
            subst h3
            exact absurd (by simp [viewSame, hs.1]) h2
        | view p c as =>
          cases src with
          | vec q bs =>
            simp only [owner] at h3
            subst h3
            exact absurd (by simp [viewSame]) h2
          | view q c' bs =>
            simp only [owner] at h3
            subst h3
            exact absurd (by simp [viewSame, hs.1]) h2
      · exact writeDirect_disjoint f _ _ m fun a ha hb =>
          hl.disjoint _ _ h3 a (sub dst hd a ha) (sub src hs a hb)
  · rw [if_neg h1, if_neg h1]

/-- C07, the values: if the target elements are distinct, each of them ends with the operation
applied to the values of before the assignment; nothing else changes. -/
theorem C07_values (own : Nat → List Nat) (hl : Layout own) (f : α → α → α) (dst src : Operand)
    (hd : Tracked own dst) (hs : Tracked own src) (hn : dst.addrs.Nodup)
    (hlen : dst.addrs.length = src.addrs.length) (m : Mem α) :
    ∃ m', assign f dst src m = .ok m' ∧
      (∀ (i a b : Nat), dst.addrs[i]? = some a → src.addrs[i]? = some b → m' a = f (m a) (m b)) ∧
      ∀ x, x ∉ dst.addrs → m' x = m x := by
  refine ⟨_, by rw [C07_snapshot own hl f dst src hd hs, if_pos hlen], ?_, ?_⟩
  · intro i a b ha hb
    exact writeValues_get f _ _ m hn i a (m b) ha (by simp [hb])
  · intro x hx; exact writeValues_other _ _ _ _ _ hx

/-- one vector at addresses 0..3; overlapping assignment `v[0..2] = v[1..3]` reversed -/
def own1 : Nat → List Nat := fun id => if id = 7 then [0, 1, 2, 3] else []

theorem layout1 : Layout own1 := by
  constructor
  · intro p q hpq a ha
    by_cases hp : p = 7
    · have : q ≠ 7 := by omega
      simp [own1, this]
    · simp [own1, hp] at ha
  · intro p; by_cases hp : p = 7 <;> simp [own1, hp]

example : ∃ m', assign (fun _ x => x) (.view 7 false [0, 1, 2]) (.view 7 false [2, 0, 1])
    (fun a => 10 * a) = .ok m' ∧ m' 0 = 20 ∧ m' 1 = 0 ∧ m' 2 = 10 := by
  obtain ⟨m', h1, h2, -⟩ := C07_values own1 layout1 (fun _ x => x) (.view 7 false [0, 1, 2])
    (.view 7 false [2, 0, 1]) ⟨rfl, by simp [own1]⟩ ⟨rfl, by simp [own1]⟩ (by decide) rfl
    (fun a => 10 * a)
  exact ⟨m', h1, h2 0 0 2 rfl rfl, h2 1 1 0 rfl rfl, h2 2 2 1 rfl rfl⟩

/-- C07: parents recorded by `v(...)` and `v[ids]` are right, also on views of views. -/
theorem C07_access_tracked (own : Nat → List Nat) (v : Operand) (hv : Tracked own v) (as : List Nat)
    (h : ∀ a ∈ as, a ∈ v.addrs) : Tracked own (.view (accessParent v) false as) := by
  cases v with
  | vec id bs => exact ⟨rfl, fun a ha => by
      have := h a ha; simp only [Tracked, Operand.addrs, accessParent] at *; rwa [← hv]⟩
  | view p c bs => exact ⟨rfl, fun a ha => hv.2 a (h a ha)⟩

/-- C07: `v = view` gives the vector exactly the values the view had. -/
theorem C07_assign_vec (own : Nat → List Nat) (hl : Layout own) (id : Nat) (src : Operand)
    (hs : Tracked own src) (hv : ∀ i as, src ≠ .vec i as) (m : Mem α) :
    assignVec (own id) id src m = .ok (src.addrs.map m) := by
  unfold assignVec
  by_cases h : viewSame (.vec id (own id)) src = true
  · rw [if_pos h]
  · rw [if_neg h, if_pos]
    cases src with
    | vec q bs => exact absurd rfl (hv q bs)
    | view q c bs =>
      have hne : q ≠ id := by
        rintro rfl; exact h (by simp [viewSame, hs.1])
      intro a ha hc
      exact hl.disjoint q id hne a (hs.2 a ha) hc

example : assignVec (own1 7) 7 (.view 7 false [3, 1]) (fun a => 10 * a) = .ok [30, 10] :=
  C07_assign_vec own1 layout1 7 (.view 7 false [3, 1]) ⟨rfl, by simp [own1]⟩ (by simp) _

/-- C07: assigning a scalar that is itself an element is harmless. -/
theorem C07_scalar (as : List Nat) (s : Nat) (m : Mem α) :
    ∀ x, assignScalar as s m x = if x ∈ as then m s else m x := by
  have key : ∀ (as : List Nat) (m : Mem α), ∀ x, assignScalar as s m x = if x ∈ as then m s else m x := by
    intro as
    induction as with
    | nil => intro m x; simp [assignScalar]
    | cons a as ih =>
      intro m x
      have h1 : assignScalar (a :: as) s m = assignScalar as s (Function.update m a (m s)) := rfl
      rw [h1, ih]
      have hs : Function.update m a (m s) s = m s := by
        by_cases h : s = a
        · subst h; simp
        · rw [Function.update_of_ne h]
      rw [hs]
      by_cases hx : x ∈ as
      · simp [hx]
      · by_cases hxa : x = a
        · subst hxa; simp [hx]
        · simp [hx, hxa]
  exact key as m

/-- Finding: a view of `const` elements is never recognised as overlapping. With
`const vec1i& cv = v;` the statement `v[{1,2,3}] = cv[{0,1,2}]` smears the first element. -/
theorem C07_const_view_refuted :
    ∃ m' : Mem Nat, assign (fun _ x => x) (.view 7 false [1, 2, 3]) (.view 7 true [0, 1, 2])
      (fun a => 10 * a + 10) = .ok m' ∧ [m' 0, m' 1, m' 2, m' 3] = [10, 10, 10, 10] :=
  ⟨_, rfl, rfl⟩

/-- Finding: `v = cv[ids]` with another size reads released storage; with the same size it can
smear. -/
theorem C07_const_assign_refuted :
    assignVec [0, 1, 2] 7 (.view 7 true [0, 1]) (fun a => 10 * a : Mem Nat) = .ub ∧
    assignVec [0, 1, 2] 7 (.view 7 true [2, 0, 0]) (fun a => 10 * a : Mem Nat) =
      .ok [20, 20, 20] := by
  decide

/-- Finding: indexing a view with a range records the view as parent, so
`w[_] = v[{0,1,2}]` with `w = v[{1,2,3}]` (object 8) is not recognised as overlapping. -/
theorem C07_view_of_view_refuted :
    let w : Operand := .view 7 false [1, 2, 3]
    ∃ m' : Mem Nat, assign (fun _ x => x) (.view (bracketParent 8 w) false [1, 2, 3])
      (.view 7 false [0, 1, 2]) (fun a => 10 * a + 10) = .ok m' ∧
      [m' 0, m' 1, m' 2, m' 3] = [10, 10, 10, 10] :=
  ⟨_, rfl, rfl⟩

/-! ## C74 -/

/-- C74 for views: the scalar is copied, so every element (distinct addresses) is combined with the
original scalar. -/
theorem C74_view_scalar (f : α → α → α) (as : List Nat) (u : α) (m : Mem α) (hn : as.Nodup) :
    ∀ x, compoundScalarView f as u m x = if x ∈ as then f (m x) u else m x := by
  have key : ∀ (as : List Nat) (m : Mem α), as.Nodup →
      ∀ x, compoundScalarView f as u m x = if x ∈ as then f (m x) u else m x := by
    intro as
    induction as with
    | nil => intro m _ x; simp [compoundScalarView]
    | cons a as ih =>
      intro m hn x
      rw [List.nodup_cons] at hn
      have h1 : compoundScalarView f (a :: as) u m =
        compoundScalarView f as u (Function.update m a (f (m a) u)) := rfl
      rw [h1, ih _ hn.2]
      by_cases hx : x ∈ as
      · have : x ≠ a := by rintro rfl; exact hn.1 hx
        simp [hx, Function.update_of_ne this]
      · by_cases hxa : x = a
        · subst hxa; simp [hx]
        · simp [hx, hxa]
  exact key as m hn

example : compoundScalarView (· * ·) [0, 1] 2 (fun a => a + 2) 1 = 6 := by decide

/-- C74 for vectors, when the scalar is not an element of the vector. -/
theorem C74_vec_scalar_partial (f : α → α → α) (as : List Nat) (s : Nat) (m : Mem α) (hn : as.Nodup)
    (hs : s ∉ as) :
    ∀ x, compoundScalarVec f as s m x = if x ∈ as then f (m x) (m s) else m x := by
  have key : ∀ (as : List Nat) (m : Mem α), s ∉ as →
      compoundScalarVec f as s m = compoundScalarView f as (m s) m := by
    intro as
    induction as with
    | nil => intro m _; rfl
    | cons a as ih =>
      intro m hs
      rw [List.mem_cons, not_or] at hs
      have h1 : compoundScalarVec f (a :: as) s m =
        compoundScalarVec f as s (Function.update m a (f (m a) (m s))) := rfl
      rw [h1, ih _ hs.2, Function.update_of_ne hs.1]; rfl
  rw [key as m hs]
  exact C74_view_scalar f as (m s) m hn

/-- Finding: `v *= v[0]` for a vector uses the already modified `v[0]` for the other elements:
`{2,3}` becomes `{4,12}` instead of `{4,6}`. -/
theorem C74_vec_scalar_refuted :
    let m' : Mem Nat := compoundScalarVec (· * ·) [0, 1] 0 (fun a => a + 2)
    [m' 0, m' 1] = [4, 12] := by decide

end Verif.Core.View
