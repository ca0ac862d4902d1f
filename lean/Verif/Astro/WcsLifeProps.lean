import Verif.Astro.WcsLife
import Mathlib.Tactic.Common
/-!
# C124: life of a WCS
-/
namespace Verif.WcsLife
open Verif

/-- Spec: the structure of a variable -/
def ptr (objs : Nat → Option Obj) : Nat → Option Nat := fun i => (objs i).bind (·.w)

/-- Spec: the structures that are alive are those pointed to by the variables, each by one variable, and they were allocated by `wcslib` -/
structure Owned (ptr : Nat → Option Nat) (heap : Nat → Option Cell) (next : Nat) : Prop where
  own : ∀ i a, ptr i = some a → ∃ c, heap a = some c ∧ c.live = true ∧ c.viaNew = false
  one : ∀ i j a, ptr i = some a → ptr j = some a → i = j
  leak : ∀ a c, heap a = some c → c.live = true → ∃ i, ptr i = some a
  fresh : ∀ a, next ≤ a → heap a = none

theorem upd_same {α : Type} (f : Nat → α) (i : Nat) (a : α) : upd f i a i = a := if_pos rfl

theorem upd_ne {α : Type} (f : Nat → α) {i j : Nat} (a : α) (h : j ≠ i) : upd f i a j = f j := if_neg h

theorem ptr_upd (objs : Nat → Option Obj) (i : Nat) (o : Option Obj) : ptr (upd objs i o) = upd (ptr objs) i (o.bind (·.w)) := by
  funext j
  by_cases h : j = i
  · subst h; rw [upd_same, ptr, upd_same]
  · rw [upd_ne _ _ h, ptr, upd_ne _ _ h, ptr]

theorem upd_id {α : Type} (f : Nat → α) (i : Nat) (a : α) (h : f i = a) : upd f i a = f := by
  funext j
  by_cases hj : j = i
  · rw [hj, upd_same, h]
  · rw [upd_ne _ _ hj]

variable {p : Nat → Option Nat} {heap : Nat → Option Cell} {next : Nat}

theorem Owned.alloc (h : Owned p heap next) (i : Nat) (hi : p i = none) (c : Cell) (h1 : c.live = true) (h2 : c.viaNew = false) :
    Owned (upd p i (some next)) (upd heap next (some c)) (next + 1) := by
  have hlt : ∀ j a, p j = some a → a ≠ next := by
    rintro j a hj rfl
    obtain ⟨c, hc, -⟩ := h.own j a hj
    rw [h.fresh a (by omega)] at hc
    cases hc
  refine ⟨fun j a hj => ?_, fun j k a hj hk => ?_, fun a c' ha hl => ?_, fun a ha => ?_⟩
  · by_cases e : j = i
    · subst e
      rw [upd_same] at hj
      cases hj
      exact ⟨c, upd_same _ _ _, h1, h2⟩
    · rw [upd_ne _ _ e] at hj
      rw [upd_ne _ _ (hlt j a hj)]
      exact h.own j a hj
  · by_cases e : j = i <;> by_cases e' : k = i
    · rw [e, e']
    · subst e
      rw [upd_same] at hj
      rw [upd_ne _ _ e'] at hk
      cases hj
      exact absurd rfl (hlt k _ hk)
    · subst e'
      rw [upd_same] at hk
      rw [upd_ne _ _ e] at hj
      cases hk
      exact absurd rfl (hlt j _ hj)
    · rw [upd_ne _ _ e] at hj
      rw [upd_ne _ _ e'] at hk
      exact h.one j k a hj hk
  · by_cases e : a = next
    · exact ⟨i, by rw [upd_same, e]⟩
    · rw [upd_ne _ _ e] at ha
      obtain ⟨j, hj⟩ := h.leak a c' ha hl
      refine ⟨j, ?_⟩
      rw [upd_ne _ _ (by rintro rfl; rw [hi] at hj; cases hj), hj]
  · rw [upd_ne _ _ (by omega), h.fresh a (by omega)]

theorem Owned.transfer (h : Owned p heap next) (i j : Nat) (hi : p i = none) : Owned (upd (upd p j none) i (p j)) heap next := by
  have key : ∀ k a, upd (upd p j none) i (p j) k = some a → (k = i ∧ p j = some a) ∨ (k ≠ i ∧ k ≠ j ∧ p k = some a) := by
    intro k a hk
    by_cases e : k = i
    · subst e; rw [upd_same] at hk; exact .inl ⟨rfl, hk⟩
    · rw [upd_ne _ _ e] at hk
      by_cases e' : k = j
      · subst e'; rw [upd_same] at hk; cases hk
      · rw [upd_ne _ _ e'] at hk; exact .inr ⟨e, e', hk⟩
  refine ⟨fun k a hk => ?_, fun k l a hk hl => ?_, fun a c ha hl => ?_, h.fresh⟩
  · rcases key k a hk with ⟨-, e⟩ | ⟨-, -, e⟩ <;> exact h.own _ a e
  · rcases key k a hk with ⟨e1, e2⟩ | ⟨e1, e2, e3⟩ <;> rcases key l a hl with ⟨f1, f2⟩ | ⟨f1, f2, f3⟩
    · rw [e1, f1]
    · exact absurd (h.one _ _ a f3 e2) f2
    · exact absurd (h.one _ _ a e3 f2) e2
    · exact h.one _ _ a e3 f3
  · obtain ⟨k, hk⟩ := h.leak a c ha hl
    by_cases e : k = j
    · subst e; exact ⟨i, by rw [upd_same, hk]⟩
    · refine ⟨k, ?_⟩
      rw [upd_ne _ _ (by rintro rfl; rw [hi] at hk; cases hk), upd_ne _ _ e, hk]

theorem Owned.release (h : Owned p heap next) (i : Nat) : ∃ heap', free heap (p i) = .ok heap' ∧ Owned (upd p i none) heap' next ∧
    (∀ j a, j ≠ i → p j = some a → heap' a = heap a) := by
  unfold free
  cases hw : p i with
  | none =>
    refine ⟨_, rfl, ?_, fun _ _ _ _ => rfl⟩
    rw [upd_id p i none hw]
    exact h
  | some b =>
    obtain ⟨c, hc, h1, h2⟩ := h.own i b hw
    simp only [hc, h1, h2, Bool.false_eq_true, not_false_eq_true, and_self, if_true]
    have hne : ∀ j a, j ≠ i → p j = some a → a ≠ b := by
      rintro j a hj ha rfl
      exact hj (h.one j i a ha hw)
    have key : ∀ k a, upd p i none k = some a → k ≠ i ∧ p k = some a := by
      intro k a hk
      by_cases e : k = i
      · subst e; rw [upd_same] at hk; cases hk
      · rw [upd_ne _ _ e] at hk; exact ⟨e, hk⟩
    refine ⟨_, rfl, ⟨fun k a hk => ?_, fun k l a hk hl => ?_, fun a c' ha hl => ?_, fun a ha => ?_⟩, fun j a hj ha => upd_ne _ _ (hne j a hj ha)⟩
    · obtain ⟨e1, e2⟩ := key k a hk
      rw [upd_ne _ _ (hne k a e1 e2)]
      exact h.own k a e2
    · exact h.one k l a (key k a hk).2 (key l a hl).2
    · by_cases e : a = b
      · subst e
        rw [upd_same] at ha
        cases ha
        cases hl
      · rw [upd_ne _ _ e] at ha
        obtain ⟨k, hk⟩ := h.leak a c' ha hl
        refine ⟨k, ?_⟩
        rw [upd_ne _ _ (by rintro rfl; rw [hw] at hk; cases hk; exact e rfl), hk]
    · rw [upd_ne _ _ (by rintro rfl; rw [h.fresh a ha] at hc; cases hc), h.fresh a ha]

theorem Owned.write (h : Owned p heap next) (a : Nat) (c c' : Cell) (hc : heap a = some c) (h1 : c'.live = c.live) (h2 : c'.viaNew = c.viaNew) :
    Owned p (upd heap a (some c')) next := by
  refine ⟨fun k b hk => ?_, h.one, fun b d hb hl => ?_, fun b hb => ?_⟩
  · obtain ⟨d, hd, e1, e2⟩ := h.own k b hk
    by_cases e : b = a
    · subst e
      rw [hc] at hd
      cases hd
      exact ⟨c', upd_same _ _ _, by rw [h1, e1], by rw [h2, e2]⟩
    · exact ⟨d, by rw [upd_ne _ _ e, hd], e1, e2⟩
  · by_cases e : b = a
    · subst e
      rw [upd_same] at hb
      cases hb
      exact h.leak b c hc (by rw [← h1, hl])
    · rw [upd_ne _ _ e] at hb
      exact h.leak b d hb hl
  · rw [upd_ne _ _ (by rintro rfl; rw [h.fresh b hb] at hc; cases hc), h.fresh b hb]

/-- Spec: the operations, without the creation of a `wcs` from a number of axes -/
def Op.Safe : Op → Prop
  | .plain _ => False
  | _ => True

/-- Spec: a consistent state -/
def Ok (s : State) : Prop := Owned (ptr s.objs) s.heap s.next

theorem ptr_of {s : State} {i : Nat} {o : Obj} (h : s.objs i = some o) : ptr s.objs i = o.w := by simp [ptr, h]

theorem step_ok (s : State) (hs : Ok s) (op : Op) (hop : op.Safe) : step s op = .abort ∨ ∃ s', step s op = .ok s' ∧ Ok s' := by
  cases op with
  | plain i => exact hop.elim
  | header i =>
    simp only [step]
    cases hi : s.objs i with
    | some o => exact .inr ⟨_, rfl, hs⟩
    | none =>
      refine .inr ⟨_, rfl, ?_⟩
      unfold Ok
      rw [ptr_upd]
      exact hs.alloc i (by simp [ptr, hi]) _ rfl rfl
  | fail i b =>
    simp only [step]
    cases hi : s.objs i with
    | some o => exact .inr ⟨_, rfl, hs⟩
    | none =>
      refine .inr ⟨_, rfl, ?_⟩
      unfold Ok
      rw [ptr_upd, upd_id _ _ _ (by simp [ptr, hi])]
      exact hs
  | moveNew i j =>
    simp only [step]
    cases hi : s.objs i with
    | some o => exact .inr ⟨_, rfl, hs⟩
    | none =>
      cases hj : s.objs j with
      | none => exact .inr ⟨_, rfl, hs⟩
      | some o =>
        refine .inr ⟨_, rfl, ?_⟩
        unfold Ok
        rw [ptr_upd, ptr_upd]
        have := hs.transfer i j (by simp [ptr, hi])
        rw [ptr_of hj] at this
        exact this
  | move i j =>
    simp only [step]
    cases hi : s.objs i with
    | none => exact .inr ⟨_, rfl, hs⟩
    | some t =>
      cases hj : s.objs j with
      | none => exact .inr ⟨_, rfl, hs⟩
      | some o =>
        obtain ⟨heap', h1, h2, -⟩ := hs.release i
        rw [ptr_of hi] at h1
        simp only
        rw [h1, Res.ok_bind]
        by_cases e : i = j
        · subst e
          rw [upd_same]
          refine .inr ⟨_, rfl, ?_⟩
          unfold Ok
          rw [ptr_upd, ptr_upd, ptr_upd]
          have : upd (upd (upd (ptr s.objs) i none) i none) i none = upd (ptr s.objs) i none := by
            funext k; by_cases e : k = i
            · subst e; simp only [upd_same]
            · simp only [upd_ne _ _ e]
          simp only [Option.bind_some]
          rw [this]
          exact h2
        · rw [upd_ne _ _ (Ne.symm e), hj]
          refine .inr ⟨_, rfl, ?_⟩
          unfold Ok
          rw [ptr_upd, ptr_upd, ptr_upd]
          have h3 := h2.transfer i j (upd_same _ _ _)
          rw [upd_ne _ _ (Ne.symm e), ptr_of hj] at h3
          have : upd (upd (upd (ptr s.objs) i none) i o.w) j none = upd (upd (upd (ptr s.objs) i none) j none) i o.w := by
            funext k
            by_cases e1 : k = j
            · subst e1; rw [upd_same, upd_ne _ _ (Ne.symm e), upd_same]
            · rw [upd_ne _ _ e1]
              by_cases e2 : k = i
              · subst e2; rw [upd_same, upd_same]
              · rw [upd_ne _ _ e2, upd_ne _ _ e2, upd_ne _ _ e2, upd_ne _ _ e1, upd_ne _ _ e2]
          simp only [Option.bind_some]
          rw [this]
          exact h3
  | destroy i =>
    simp only [step]
    cases hi : s.objs i with
    | none => exact .inr ⟨_, rfl, hs⟩
    | some o =>
      obtain ⟨heap', h1, h2, -⟩ := hs.release i
      rw [ptr_of hi] at h1
      simp only
      rw [h1, Res.ok_bind]
      refine .inr ⟨_, rfl, ?_⟩
      unfold Ok
      rw [ptr_upd]
      exact h2
  | change i =>
    simp only [step]
    cases hi : s.objs i with
    | none => exact .inr ⟨_, rfl, hs⟩
    | some o =>
      obtain ⟨w, b⟩ := o
      cases w with
      | none => exact .inr ⟨_, rfl, hs⟩
      | some a =>
        obtain ⟨c, hc, h1, h2⟩ := hs.own i a (ptr_of hi)
        simp only [hc, h1, if_true]
        refine .inr ⟨_, rfl, ?_⟩
        unfold Ok
        rw [ptr_upd, show ((some (⟨some a, false⟩ : Obj)).bind fun x => x.w) = some a from rfl, upd_id (ptr s.objs) i (some a) (ptr_of hi)]
        exact hs.write a c _ hc h1.symm rfl
  | update i =>
    simp only [step]
    cases hi : s.objs i with
    | none => exact .inr ⟨_, rfl, hs⟩
    | some o =>
      obtain ⟨w, b⟩ := o
      cases b with
      | true => exact .inr ⟨_, rfl, hs⟩
      | false =>
        cases w with
        | none => exact .inl rfl
        | some a =>
          obtain ⟨c, hc, h1, h2⟩ := hs.own i a (ptr_of hi)
          simp only [hc, h1, if_true, Bool.false_eq_true, if_false]
          refine .inr ⟨_, rfl, ?_⟩
          unfold Ok
          rw [ptr_upd, show ((some (⟨some a, true⟩ : Obj)).bind fun x => x.w) = some a from rfl, upd_id (ptr s.objs) i (some a) (ptr_of hi)]
          exact hs.write a c _ hc h1.symm rfl

theorem empty_ok : Ok State.empty := ⟨by simp [ptr, State.empty], by simp [ptr, State.empty], by simp [State.empty], by simp [State.empty]⟩

theorem run_ok (ops : List Op) : ∀ s, Ok s → (∀ o ∈ ops, o.Safe) → run s ops = .abort ∨ ∃ s', run s ops = .ok s' ∧ Ok s' := by
  induction ops with
  | nil => intro s hs _; exact .inr ⟨s, rfl, hs⟩
  | cons o ops ih =>
    intro s hs h
    rw [run]
    rcases step_ok s hs o (h o (by simp)) with e | ⟨s', e, hs'⟩
    · rw [e]; exact .inl rfl
    · rw [e, Res.ok_bind]
      exact ih s' hs' fun o ho => h o (by simp [ho])

/-- **C124** in a program which creates its `wcs` from headers, no structure is used after it is freed, nor freed twice. -/
theorem C124_safe_partial (ops : List Op) (h : ∀ o ∈ ops, o.Safe) : run State.empty ops ≠ .ub ∧ run State.empty ops ≠ .diverge := by
  rcases run_ok ops _ empty_ok h with e | ⟨s', e, -⟩ <;> rw [e] <;> simp

/-- **C124** two variables never share a structure, and when all of them are destroyed everything is freed -/
theorem C124_owner_partial (ops : List Op) (h : ∀ o ∈ ops, o.Safe) (s : State) (hs : run State.empty ops = .ok s) :
    (∀ i j o q a, s.objs i = some o → s.objs j = some q → o.w = some a → q.w = some a → i = j) ∧
    ((∀ i, s.objs i = none) → ∀ a c, s.heap a = some c → c.live = false) := by
  rcases run_ok ops _ empty_ok h with e | ⟨s', e, hok⟩
  · rw [e] at hs; cases hs
  · rw [e] at hs
    cases hs
    refine ⟨fun i j o q a h1 h2 h3 h4 => hok.one i j a (by rw [ptr_of h1, h3]) (by rw [ptr_of h2, h4]), fun hn a c hc => ?_⟩
    cases hl : c.live with
    | false => rfl
    | true =>
      obtain ⟨i, hi⟩ := hok.leak a c hc hl
      simp [ptr, hn i] at hi

/-- Spec: no move assignment -/
def Op.NoMove : Op → Prop
  | .move _ _ => False
  | _ => True

/-- Spec: a `wcs` that says that it is set has its current parameters set -/
def Fresh (s : State) : Prop := ∀ i a, s.objs i = some ⟨some a, true⟩ → ∃ c, s.heap a = some c ∧ c.set = some c.cur

theorem step_fresh (s s' : State) (hs : Ok s) (hf : Fresh s) (op : Op) (hop : op.Safe) (hm : op.NoMove) (h : step s op = .ok s') : Fresh s' := by
  cases op with
  | plain i => exact hop.elim
  | header i =>
    simp only [step] at h
    cases hi : s.objs i with
    | some o => rw [hi] at h; cases h; exact hf
    | none =>
      rw [hi] at h
      cases h
      intro j a hj
      by_cases e : j = i
      · subst e
        simp only [upd_same] at hj
        cases hj
        exact ⟨_, upd_same _ _ _, rfl⟩
      · simp only [upd_ne _ _ e] at hj
        obtain ⟨c, hc, h1⟩ := hf j a hj
        refine ⟨c, ?_, h1⟩
        simp only
        rw [upd_ne _ _ (by rintro rfl; rw [hs.fresh _ (Nat.le_refl _)] at hc; cases hc), hc]
  | fail i b =>
    simp only [step] at h
    cases hi : s.objs i with
    | some o => rw [hi] at h; cases h; exact hf
    | none =>
      rw [hi] at h
      cases h
      intro j a hj
      by_cases e : j = i
      · subst e
        simp only [upd_same] at hj
        cases hj
      · simp only [upd_ne _ _ e] at hj
        exact hf j a hj
  | moveNew i j =>
    simp only [step] at h
    cases hi : s.objs i with
    | some o => rw [hi] at h; cases h; exact hf
    | none =>
      cases hj : s.objs j with
      | none => rw [hi, hj] at h; cases h; exact hf
      | some o =>
        rw [hi, hj] at h
        cases h
        intro k a hk
        simp only at hk
        by_cases e : k = i
        · subst e
          rw [upd_same, Option.some.injEq, Obj.mk.injEq] at hk
          cases hk.2
        · rw [upd_ne _ _ e] at hk
          by_cases e' : k = j
          · subst e'
            rw [upd_same, Option.some.injEq, Obj.mk.injEq] at hk
            cases hk.1
          · rw [upd_ne _ _ e'] at hk
            exact hf k a hk
  | move i j => exact hm.elim
  | destroy i =>
    simp only [step] at h
    cases hi : s.objs i with
    | none => rw [hi] at h; cases h; exact hf
    | some o =>
      obtain ⟨heap', h1, -, h3⟩ := hs.release i
      rw [ptr_of hi] at h1
      rw [hi] at h
      simp only at h
      rw [h1, Res.ok_bind] at h
      cases h
      intro j a hj
      simp only at hj ⊢
      by_cases e : j = i
      · subst e; rw [upd_same] at hj; cases hj
      · rw [upd_ne _ _ e] at hj
        rw [h3 j a e (ptr_of hj)]
        exact hf j a hj
  | change i =>
    simp only [step] at h
    cases hi : s.objs i with
    | none => rw [hi] at h; cases h; exact hf
    | some o =>
      obtain ⟨w, b⟩ := o
      cases w with
      | none => rw [hi] at h; cases h; exact hf
      | some a =>
        obtain ⟨c, hc, h1, h2⟩ := hs.own i a (ptr_of hi)
        rw [hi] at h
        simp only [hc, h1, if_true] at h
        cases h
        intro j a' hj
        simp only at hj ⊢
        by_cases e : j = i
        · subst e; rw [upd_same] at hj; cases hj
        · rw [upd_ne _ _ e] at hj
          rw [upd_ne _ _ (by rintro rfl; exact e (hs.one j i a' (ptr_of hj) (ptr_of hi)))]
          exact hf j a' hj
  | update i =>
    simp only [step] at h
    cases hi : s.objs i with
    | none => rw [hi] at h; cases h; exact hf
    | some o =>
      obtain ⟨w, b⟩ := o
      cases b with
      | true => rw [hi] at h; cases h; exact hf
      | false =>
        cases w with
        | none => rw [hi] at h; cases h
        | some a =>
          obtain ⟨c, hc, h1, h2⟩ := hs.own i a (ptr_of hi)
          rw [hi] at h
          simp only [hc, h1, if_true, Bool.false_eq_true, if_false] at h
          cases h
          intro j a' hj
          simp only at hj ⊢
          by_cases e : j = i
          · subst e
            rw [upd_same] at hj
            cases hj
            exact ⟨_, upd_same _ _ _, rfl⟩
          · rw [upd_ne _ _ e] at hj
            rw [upd_ne _ _ (by rintro rfl; exact e (hs.one j i a' (ptr_of hj) (ptr_of hi)))]
            exact hf j a' hj

theorem run_fresh (ops : List Op) : ∀ s s', Ok s → Fresh s → (∀ o ∈ ops, o.Safe ∧ o.NoMove) → run s ops = .ok s' → Ok s' ∧ Fresh s' := by
  induction ops with
  | nil => intro s s' hs hf _ h; cases h; exact ⟨hs, hf⟩
  | cons o ops ih =>
    intro s s' hs hf h hr
    rw [run, Res.bind_eq_ok] at hr
    obtain ⟨t, ht, hr⟩ := hr
    rcases step_ok s hs o (h o (by simp)).1 with e | ⟨t', e, ht'⟩
    · rw [e] at ht; cases ht
    · rw [e] at ht
      cases ht
      exact ih t s' ht' (step_fresh s t hs hf o (h o (by simp)).1 (h o (by simp)).2 e) (fun o ho => h o (by simp [ho])) hr

/-- **C124** after `update()`, the conversions use the current parameters, in a program without move assignments -/
theorem C124_update_partial (ops : List Op) (h : ∀ o ∈ ops, o.Safe ∧ o.NoMove) (i : Nat) (s : State) (hr : run State.empty (ops ++ [.update i]) = .ok s)
    (v : Nat) (hv : current s i = some v) : used s i = some v := by
  have hf0 : Fresh State.empty := fun j a hj => by cases hj
  obtain ⟨hs, hf⟩ := run_fresh _ _ _ empty_ok hf0 (by
    intro o ho
    rcases List.mem_append.1 ho with ho | ho
    · exact h o ho
    · rw [List.mem_singleton.1 ho]; exact ⟨trivial, trivial⟩) hr
  have hset : ∀ o, s.objs i = some o → o.isset = true := by
    have run_app : ∀ (l m : List Op) (t : State), run t (l ++ m) = (run t l >>= fun u => run u m) := by
      intro l
      induction l with
      | nil => intro m t; rfl
      | cons a l ih =>
        intro m t
        rw [List.cons_append, run, run]
        cases hst : step t a with
        | ok u => rw [Res.ok_bind, Res.ok_bind, ih]
        | abort => rfl
        | ub => rfl
        | diverge => rfl
    rw [run_app, Res.bind_eq_ok] at hr
    obtain ⟨t, ht, hr⟩ := hr
    rw [run, Res.bind_eq_ok] at hr
    obtain ⟨t', ht', hr⟩ := hr
    cases hr
    intro o ho
    simp only [step] at ht'
    cases hi : t.objs i with
    | none => rw [hi] at ht'; cases ht'; rw [hi] at ho; cases ho
    | some o' =>
      obtain ⟨w, b⟩ := o'
      cases b with
      | true => rw [hi] at ht'; cases ht'; rw [hi] at ho; cases ho; rfl
      | false =>
        rw [hi] at ht'
        simp only [Bool.false_eq_true, if_false] at ht'
        split at ht'
        · cases ht'
        · split at ht'
          · split at ht'
            · cases ht'
              simp only [upd_same] at ho
              cases ho
              rfl
            · cases ht'
          · cases ht'
  unfold current at hv
  unfold used
  cases ho : s.objs i with
  | none => rw [ho] at hv; cases hv
  | some o =>
    obtain ⟨w, b⟩ := o
    have hb : b = true := hset _ ho
    subst hb
    cases w with
    | none => rw [ho] at hv; cases hv
    | some a =>
      obtain ⟨c, hc, h1⟩ := hf i a ho
      rw [ho] at hv
      simp only [hc, Option.map_some, Option.some.injEq] at hv ⊢
      rw [h1, Option.getD_some, hv]

/-- **C124** fails with move assignments: a variable that is set keeps saying so when it receives a structure whose parameters were changed, and `update()`
does nothing -/
theorem C124_update_refuted : ∃ s, run State.empty [.header 0, .header 1, .change 1, .move 0 1, .update 0] = .ok s ∧ current s 0 = some 1 ∧ used s 0 = some 0 :=
  ⟨_, rfl, rfl, rfl⟩

/-- **C124** fails for a `wcs` created from a number of axes: the structure is allocated by `new` and freed by `free` -/
theorem C124_safe_refuted : run State.empty [.plain 0, .destroy 0] = .ub := rfl

example : ∃ s, run State.empty [.header 0, .change 0, .moveNew 1 0, .update 1, .fail 2 true, .move 2 1, .destroy 0, .destroy 1] = .ok s ∧
    current s 2 = some 1 ∧ used s 2 = some 1 ∧ current s 0 = none := ⟨_, rfl, rfl, rfl, rfl⟩

example : run State.empty [.header 0, .move 0 0, .update 0, .destroy 0] ≠ .ub :=
  (C124_safe_partial _ (by
    intro o ho
    simp only [List.mem_cons, List.not_mem_nil, or_false] at ho
    rcases ho with rfl | rfl | rfl | rfl <;> trivial)).1

end Verif.WcsLife
