import Verif.Astro.Segment
import Mathlib.Logic.Relation
import Mathlib.Data.List.Nodup
/-!
# Helper lemmas for C65 and C89: positions, neighbours, flood fill
-/
namespace Verif.Astro
open Verif

/-! ### Specification -/

/-- Spec: the value of a map at a position, 0 outside. -/
def val (m : Img Nat) (p : Nat × Nat) : Nat := (m.at p.1 p.2).getD 0

/-- Spec: the positions share a side. -/
def Adj (p q : Nat × Nat) : Prop :=
  (p.1 = q.1 ∧ (p.2 + 1 = q.2 ∨ q.2 + 1 = p.2)) ∨ (p.2 = q.2 ∧ (p.1 + 1 = q.1 ∨ q.1 + 1 = p.1))

/-- Spec: connected by steps through non-zero pixels. -/
def Conn (m : Img Nat) (p q : Nat × Nat) : Prop :=
  val m p ≠ 0 ∧ Relation.ReflTransGen (fun a b => Adj a b ∧ val m b ≠ 0) p q

/-- Spec: row-major index of a position. -/
def flat (m : Img Nat) (p : Nat × Nat) : Nat := p.1 * m.ny + p.2

theorem Adj.symm {p q} (h : Adj p q) : Adj q p := by unfold Adj at *; omega
theorem Adj.ne {p q} (h : Adj p q) : p ≠ q := by rintro rfl; unfold Adj at h; omega

theorem Conn.right {m p q} (h : Conn m p q) : val m q ≠ 0 := by
  obtain ⟨h1, h2⟩ := h
  induction h2 with
  | refl => exact h1
  | tail _ h _ => exact h.2

theorem Conn.refl {m p} (h : val m p ≠ 0) : Conn m p p := ⟨h, .refl⟩
theorem Conn.step {m p q r} (h : Conn m p q) (ha : Adj q r) (hr : val m r ≠ 0) : Conn m p r := ⟨h.1, h.2.tail ⟨ha, hr⟩⟩
theorem Conn.trans {m p q r} (h : Conn m p q) (h' : Conn m q r) : Conn m p r := ⟨h.1, h.2.trans h'.2⟩
theorem Conn.symm {m p q} (h : Conn m p q) : Conn m q p := by
  obtain ⟨h1, h2⟩ := h
  induction h2 with
  | refl => exact .refl h1
  | @tail b c hb hc ih =>
    have : Conn m p b := ⟨h1, hb⟩
    exact ((Conn.refl hc.2).step hc.1.symm this.right).trans ih

theorem val_ne {m : Img Nat} {p} (h : val m p ≠ 0) : p.1 < m.nx ∧ p.2 < m.ny := by
  unfold val at h
  by_contra hc
  rw [at_none hc] at h
  exact h rfl

theorem get_val {m : Img Nat} (hw : m.WF) {p : Nat × Nat} (h : p.1 < m.nx ∧ p.2 < m.ny) : m.get p.1 p.2 = .ok (val m p) := by
  obtain ⟨a, ha⟩ := at_isSome hw h.1 h.2
  rw [get_at ha, val, ha]; rfl

theorem px_val {m : Img Nat} (hw : m.WF) {p : Nat × Nat} (h : p.1 < m.nx ∧ p.2 < m.ny) : m.px[flat m p]? = some (val m p) :=
  Res.rd_eq_ok.1 (get_val hw h)

theorem put_val {v : Img Nat} (hw : v.WF) {p : Nat × Nat} (h : p.1 < v.nx ∧ p.2 < v.ny) (a : Nat) :
    ∃ w, v.put p.1 p.2 a = .ok w ∧ w.WF ∧ w.nx = v.nx ∧ w.ny = v.ny ∧ (∀ q, val w q = if q = p then a else val v q) ∧
      ∀ P : Nat → Bool, w.px.countP P + (if P (val v p) then 1 else 0) = v.px.countP P + if P a then 1 else 0 := by
  obtain ⟨w, w1, w2, w3, w4, w5⟩ := put_spec hw h.1 h.2 a
  refine ⟨w, w1, w2, w3, w4, ?_, ?_⟩
  · intro q
    unfold val
    rw [w5]
    by_cases e : q = p
    · rw [if_pos e, if_pos (by subst e; exact ⟨rfl, rfl⟩)]; rfl
    · rw [if_neg e, if_neg (fun he => e (Prod.ext he.1 he.2))]
  · intro P
    have hl : flat v p < v.px.length := by rw [hw]; exact flat_lt h.1 h.2
    have hpx := px_val hw h
    rw [List.getElem?_eq_getElem hl, Option.some.injEq] at hpx
    have he : w = { v with px := v.px.set (flat v p) a } := by
      unfold Img.put at w1
      rw [if_pos (show p.1 * v.ny + p.2 < v.px.length from hl), Res.ok.injEq] at w1
      exact w1.symm
    rw [he]
    simp only
    rw [List.countP_set hl, hpx]
    have : (if P (val v p) = true then 1 else 0) ≤ v.px.countP P := by
      split
      · rename_i hp
        rw [Nat.succ_le_iff, List.countP_pos_iff]
        exact ⟨_, List.getElem_mem hl, by rw [hpx]; exact hp⟩
      · omega
    omega

theorem mem_nbrs {ny nx : Nat} {p q : Nat × Nat} (h : p.1 < ny ∧ p.2 < nx) :
    q ∈ nbrs ny nx p.1 p.2 ↔ Adj p q ∧ q.1 < ny ∧ q.2 < nx := by
  obtain ⟨a, b⟩ := p
  obtain ⟨c, d⟩ := q
  simp only at h
  have hm : ∀ (P : Prop) [Decidable P] (u v : Nat), ((c, d) ∈ if P then [(u, v)] else []) ↔ P ∧ c = u ∧ d = v := by
    intro P _ u v
    split <;> simp_all
  unfold nbrs
  simp only [List.mem_append, hm]
  unfold Adj
  simp only
  omega

theorem length_nbrs (ny nx a b : Nat) : (nbrs ny nx a b).length ≤ 4 := by
  unfold nbrs
  simp only [List.length_append]
  split <;> split <;> split <;> split <;> simp

theorem nodup_nbrs (ny nx a b : Nat) : (nbrs ny nx a b).Nodup := by
  unfold nbrs
  split <;> split <;> split <;> split <;> simp <;> omega

/-! ### Flood fill -/

theorem checkAdd_fold (l : List (Nat × Nat)) (s : Fill) (hw : s.map.WF) (hl : ∀ p ∈ l, p.1 < s.map.nx ∧ p.2 < s.map.ny) :
    ∃ s', l.foldlM (fun s p => checkAdd s p.1 p.2) s = .ok s' ∧ s'.map = s.map ∧ s'.smap = s.smap ∧
      s'.st = (l.filter fun p => decide (val s.map p ≠ 0)).reverse ++ s.st ∧
      s'.area = s.area + (l.filter fun p => decide (val s.map p ≠ 0)).length := by
  induction l generalizing s with
  | nil => exact ⟨s, rfl, rfl, rfl, by simp, by simp⟩
  | cons p l ih =>
    rw [List.foldlM_cons]
    unfold checkAdd
    rw [get_val hw (hl p (by simp)), Res.ok_bind]
    by_cases h : val s.map p ≠ 0
    · rw [if_pos h, Res.ok_bind]
      obtain ⟨s', h1, h2, h3, h4, h5⟩ := ih { s with area := s.area + 1, sx := s.sx + p.2, sy := s.sy + p.1, st := (p.1, p.2) :: s.st } hw
        (fun q hq => hl q (by simp [hq]))
      refine ⟨s', h1, h2, h3, ?_, ?_⟩
      · rw [h4, List.filter_cons_of_pos (by simpa using h)]; simp
      · rw [h5, List.filter_cons_of_pos (by simpa using h)]; simp only [List.length_cons]; omega
    · rw [if_neg h, Res.ok_bind]
      obtain ⟨s', h1, h2, h3, h4, h5⟩ := ih s hw (fun q hq => hl q (by simp [hq]))
      refine ⟨s', h1, h2, h3, ?_, ?_⟩
      · rw [h4, List.filter_cons_of_neg (by simpa using h)]
      · rw [h5, List.filter_cons_of_neg (by simpa using h)]

/-- number of unlabelled non-zero pixels -/
def todo (m : Img Nat) : Nat := m.px.countP fun a => decide (a ≠ 0)

/-- measure of the flood fill -/
def meas (s : Fill) : Nat :=
  10 * todo s.map + s.st.length + match s.st with | [] => 0 | p :: _ => if val s.map p = 0 then 5 else 0

/-- invariant of the flood fill of the component of `o`, with label `id`, from the segmentation map `sm` -/
structure FInv (m sm : Img Nat) (id : Nat) (o : Nat × Nat) (s : Fill) : Prop where
  wm : s.map.WF
  ws : s.smap.WF
  dm : s.map.nx = m.nx ∧ s.map.ny = m.ny
  ds : s.smap.nx = m.nx ∧ s.smap.ny = m.ny
  mv : ∀ p, val s.map p = if val s.smap p = 0 then val m p else 0
  lab : ∀ p, val s.smap p = val sm p ∨ (val sm p = 0 ∧ val s.smap p = id)
  con : ∀ p, val s.smap p = id → Conn m o p
  stk : ∀ p ∈ s.st, Conn m o p ∧ (val s.smap p = 0 ∨ val s.smap p = id)
  fro : ∀ p q, val s.smap p = id → Adj p q → val m q ≠ 0 → val s.smap q = id ∨ q ∈ s.st
  cnt : ∀ j, j ≠ id → j ≠ 0 → s.smap.px.countP (fun a => decide (a = j)) = sm.px.countP fun a => decide (a = j)
  area : s.smap.px.countP (fun a => decide (a = id)) + s.st.length ≤ s.area

/-- what the flood fill knows about the segmentation map it starts from -/
structure Old (m sm : Img Nat) (id : Nat) : Prop where
  pos : 0 < id
  lt : ∀ p, val sm p < id
  full : ∀ p q, val sm p ≠ 0 → Adj p q → val m q ≠ 0 → val sm q = val sm p

/-- Processing the top of the stack keeps the invariant and decreases the measure. -/
theorem process_spec {m sm : Img Nat} {id : Nat} {o p : Nat × Nat} {s : Fill} (ho : Old m sm id)
    (hi : FInv m sm id o { s with st := p :: s.st }) :
    ∃ s', processPoint id s p.1 p.2 = .ok s' ∧ FInv m sm id o s' ∧ meas s' < meas { s with st := p :: s.st } ∧ val s'.smap p = id ∧
      (∀ q, val s.smap q = id → val s'.smap q = id) := by
  obtain ⟨wm, ws, dm, ds, mv, lab, con, stk, fro, cnt, area⟩ := hi
  simp only at wm ws dm ds mv lab con cnt area
  obtain ⟨hcp, hlp⟩ := stk p (by simp)
  simp only at hlp
  have hr := val_ne hcp.right
  obtain ⟨mp, p1, p2, p3, p4, p5, p6⟩ := put_val wm (p := p) (by omega) 0
  obtain ⟨sp, q1, q2, q3, q4, q5, q6⟩ := put_val ws (p := p) (by omega) id
  obtain ⟨s', r1, r2, r3, r4, r5⟩ := checkAdd_fold (nbrs mp.nx mp.ny p.1 p.2) { s with map := mp, smap := sp } p2
    (fun q hq => ((mem_nbrs (by omega)).1 hq).2)
  simp only at r2 r3 r4 r5
  have hex : processPoint id s p.1 p.2 = .ok s' := by
    unfold processPoint
    rw [p1, Res.ok_bind, q1, Res.ok_bind, r1]
  have hid : id ≠ 0 := by have := ho.pos; omega
  have hmem : ∀ q, q ∈ s'.st ↔ (Adj p q ∧ val mp q ≠ 0) ∨ q ∈ s.st := by
    intro q
    rw [r4, List.mem_append, List.mem_reverse, List.mem_filter, mem_nbrs (by omega)]
    simp only [ne_eq, decide_not, Bool.not_eq_true', decide_eq_false_iff_not]
    constructor
    · rintro (⟨⟨h1, -⟩, h2⟩ | h)
      · exact Or.inl ⟨h1, h2⟩
      · exact Or.inr h
    · rintro (⟨h1, h2⟩ | h)
      · exact Or.inl ⟨⟨h1, val_ne h2⟩, h2⟩
      · exact Or.inr h
  have hmv : ∀ q, val s'.map q = if val s'.smap q = 0 then val m q else 0 := by
    intro q
    rw [r2, r3, p5, q5]
    by_cases e : q = p
    · rw [if_pos e, if_pos e, if_neg hid]
    · rw [if_neg e, if_neg e, mv]
  have hlab : ∀ q, val s'.smap q = val sm q ∨ (val sm q = 0 ∧ val s'.smap q = id) := by
    intro q
    rw [r3, q5]
    by_cases e : q = p
    · subst e
      rw [if_pos rfl]
      refine Or.inr ⟨?_, rfl⟩
      rcases lab q with h | h
      · rcases hlp with h' | h'
        · omega
        · have := ho.lt q; omega
      · exact h.1
    · rw [if_neg e]; exact lab q
  have hcon : ∀ q, val s'.smap q = id → Conn m o q := by
    intro q hq
    rw [r3, q5] at hq
    by_cases e : q = p
    · rw [e]; exact hcp
    · rw [if_neg e] at hq; exact con q hq
  have hlen : (nbrs mp.nx mp.ny p.1 p.2 |>.filter fun q => decide (val mp q ≠ 0)).length ≤ 4 :=
    le_trans (List.length_filter_le _ _) (length_nbrs _ _ _ _)
  refine ⟨s', hex, ⟨by rw [r2]; exact p2, by rw [r3]; exact q2, by rw [r2]; omega, by rw [r3]; omega, hmv, hlab, hcon, ?_, ?_, ?_, ?_⟩, ?_, ?_, ?_⟩
  · intro q hq
    rcases (hmem q).1 hq with ⟨h1, h2⟩ | h
    · have hmp : val s'.map q ≠ 0 := by rw [r2]; exact h2
      rw [hmv] at hmp
      split at hmp
      · rename_i h0
        exact ⟨hcp.step h1 hmp, Or.inl h0⟩
      · exact absurd rfl hmp
    · obtain ⟨h1, h2⟩ := stk q (by simp [h])
      refine ⟨h1, ?_⟩
      rw [r3, q5]
      split
      · exact Or.inr rfl
      · exact h2
  · intro a q ha hadj hq
    have hql : val s'.smap q = 0 ∨ val s'.smap q = id := by
      rcases hlab q with h | h
      · by_cases h0 : val sm q = 0
        · exact Or.inl (by omega)
        · exfalso
          -- an old component next to a new pixel
          have := ho.full q a h0 hadj.symm (hcon a ha).right
          rcases hlab a with h' | h'
          · have := ho.lt a; omega
          · omega
      · exact Or.inr h.2
    rcases hql with h | h
    · refine Or.inr ?_
      rw [hmem]
      by_cases e : a = p
      · left
        subst e
        refine ⟨hadj, ?_⟩
        rw [← r2, hmv, if_pos h]; exact hq
      · right
        rw [r3, q5, if_neg e] at ha
        rw [r3, q5] at h
        split at h
        · omega
        · rename_i hqp
          rcases fro a q ha hadj hq with h' | h'
          · simp only at h'; omega
          · simpa [hqp] using h'
    · exact Or.inl h
  · intro j hj hj0
    have := q6 fun a => decide (a = j)
    simp only [decide_eq_true_eq] at this
    rw [r3, ← cnt j hj hj0]
    rw [if_neg (show ¬ id = j by omega), if_neg (by omega)] at this
    exact this
  · have := q6 fun a => decide (a = id)
    simp only [decide_eq_true_eq, if_true] at this
    rw [r3, r4, r5]
    simp only [List.length_append, List.length_reverse, List.length_cons] at area ⊢
    omega
  · unfold meas
    have h1 := p6 fun a => decide (a ≠ 0)
    simp only [ne_eq, not_true, decide_false, Bool.false_eq_true, if_false, decide_eq_true_eq, Nat.add_zero] at h1
    have hst : s'.st.length = (nbrs mp.nx mp.ny p.1 p.2 |>.filter fun q => decide (val mp q ≠ 0)).length + s.st.length := by
      rw [r4]; simp
    simp only [List.length_cons, todo]
    rw [r2]
    have hm5 : (match s'.st with | [] => 0 | q :: _ => if val mp q = 0 then 5 else 0) ≤ 5 := by
      split
      · omega
      · split <;> omega
    by_cases h0 : val s.map p = 0
    · rw [if_pos h0]
      rw [if_neg (by simpa using h0)] at h1
      simp only [ne_eq] at hst ⊢
      cases hf : (nbrs mp.nx mp.ny p.1 p.2 |>.filter fun q => decide (val mp q ≠ 0)).reverse with
      | nil =>
        have hz := congrArg List.length hf
        simp only [ne_eq, List.length_reverse, List.length_nil] at hz
        omega
      | cons q t =>
        have hq : val mp q ≠ 0 := by
          have : q ∈ (nbrs mp.nx mp.ny p.1 p.2 |>.filter fun q => decide (val mp q ≠ 0)) := by
            rw [← List.mem_reverse, hf]; simp
          simpa using (List.mem_filter.1 this).2
        rw [hf] at r4
        simp only [List.cons_append] at r4
        have : (match s'.st with | [] => 0 | q :: _ => if val mp q = 0 then 5 else 0) = 0 := by
          rw [r4]; simp [hq]
        simp only [ne_eq] at hlen
        omega
    · rw [if_neg h0]
      rw [if_pos (by simpa using h0)] at h1
      simp only [ne_eq] at hst hlen ⊢
      omega
  · rw [r3, q5, if_pos rfl]
  · intro q hq
    rw [r3, q5]
    split
    · rfl
    · exact hq

theorem fillLoop_spec {m sm : Img Nat} {id : Nat} {o : Nat × Nat} (ho : Old m sm id) :
    ∀ (n : Nat) (s : Fill), FInv m sm id o s → meas s < n → ∃ s', fillLoop id n s = .ok s' ∧ FInv m sm id o s' ∧ s'.st = []
      ∧ (∀ p, val s.smap p = id → val s'.smap p = id) := by
  intro n
  induction n with
  | zero => intro s _ h; omega
  | succ n ih =>
    intro s hi hm
    unfold fillLoop
    match hst : s.st with
    | [] => exact ⟨s, rfl, hi, hst, fun _ h => h⟩
    | p :: st =>
      simp only
      have hs : s = { ({ s with st := st } : Fill) with st := p :: ({ s with st := st } : Fill).st } := by
        rw [← hst]
      rw [hs] at hi
      obtain ⟨s', h1, h2, h3, h4, h5⟩ := process_spec (s := { s with st := st }) ho hi
      rw [h1, Res.ok_bind]
      rw [← hs] at h3 hi
      obtain ⟨s2, k1, k2, k3, k4⟩ := ih s' h2 (by omega)
      refine ⟨s2, k1, k2, k3, fun q hq => k4 q (h5 q hq)⟩

end Verif.Astro
