import Verif.Astro.SegDist
import Verif.Astro.SegLemmas
import Mathlib.Algebra.Order.BigOperators.Group.List
import Mathlib.Tactic.Linarith
/-!
# Helper lemmas for C128: the flood fill and the growth of `segment_distance`
-/
namespace Verif.Astro
open Verif

/-- the value of a distance map, `none` outside -/
def dval (d : Img (Option Nat)) (p : Nat × Nat) : Option Nat := (d.at p.1 p.2).getD none

/-- inside the image -/
def In (m : Img Nat) (p : Nat × Nat) : Prop := p.1 < m.nx ∧ p.2 < m.ny

theorem get_dval {m : Img (Option Nat)} (hw : m.WF) {p : Nat × Nat} (h : p.1 < m.nx ∧ p.2 < m.ny) : m.get p.1 p.2 = .ok (dval m p) := by
  obtain ⟨a, ha⟩ := at_isSome hw h.1 h.2
  rw [get_at ha, dval, ha]; rfl

/-- potential of one pixel -/
def pot (B : Nat) : Option Nat → Nat
  | none => B
  | some d => d

/-- potential of a distance map -/
def potI (B : Nat) (d : Img (Option Nat)) : Nat := (d.px.map (pot B)).sum

theorem sum_set_map {α : Type} (f : α → Nat) (l : List α) (i : Nat) (hi : i < l.length) (a : α) :
    ((l.set i a).map f).sum + f l[i] = (l.map f).sum + f a := by
  induction l generalizing i with
  | nil => simp at hi
  | cons b l ih =>
    cases i with
    | zero => simp; omega
    | succ i =>
      simp only [List.set_cons_succ, List.map_cons, List.sum_cons, List.getElem_cons_succ]
      have := ih i (by simpa using hi)
      omega

theorem put_dval {v : Img (Option Nat)} (hw : v.WF) {p : Nat × Nat} (h : p.1 < v.nx ∧ p.2 < v.ny) (a : Option Nat) :
    ∃ w, v.put p.1 p.2 a = .ok w ∧ w.WF ∧ w.nx = v.nx ∧ w.ny = v.ny ∧ (∀ q, dval w q = if q = p then a else dval v q) ∧
      ∀ B, potI B w + pot B (dval v p) = potI B v + pot B a := by
  obtain ⟨w, w1, w2, w3, w4, w5⟩ := put_spec hw h.1 h.2 a
  refine ⟨w, w1, w2, w3, w4, ?_, ?_⟩
  · intro q
    unfold dval
    rw [w5]
    by_cases e : q = p
    · rw [if_pos e, if_pos (by subst e; exact ⟨rfl, rfl⟩)]; rfl
    · rw [if_neg e, if_neg (fun he => e (Prod.ext he.1 he.2))]
  · intro B
    have hl : p.1 * v.ny + p.2 < v.px.length := by rw [hw]; exact flat_lt h.1 h.2
    have hpx : v.px[p.1 * v.ny + p.2]? = some (dval v p) := Res.rd_eq_ok.1 (get_dval hw h)
    rw [List.getElem?_eq_getElem hl, Option.some.injEq] at hpx
    have he : w = { v with px := v.px.set (p.1 * v.ny + p.2) a } := by
      unfold Img.put at w1
      rw [if_pos hl, Res.ok.injEq] at w1
      exact w1.symm
    rw [he]
    unfold potI
    simp only
    have := sum_set_map (pot B) v.px _ hl a
    rw [hpx] at this
    exact this

theorem sqd_self (p : Nat × Nat) : sqd p p = 0 := by simp [sqd]

theorem sqd_eq_zero {p q : Nat × Nat} (h : sqd p q = 0) : p = q := by
  unfold sqd at h
  have h1 : ((p.1 : Int) - q.1).natAbs ^ 2 = 0 := by omega
  have h2 : ((p.2 : Int) - q.2).natAbs ^ 2 = 0 := by omega
  rw [Nat.pow_eq_zero] at h1 h2
  apply Prod.ext <;> omega

theorem sqd_adj {p q : Nat × Nat} (h : Adj p q) : sqd q p = 1 := by
  unfold Adj at h
  unfold sqd
  rcases h with ⟨h1, h2⟩ | ⟨h1, h2⟩
  · rw [h1, show ((q.2 : Int) - p.2).natAbs = 1 by omega]; simp
  · rw [h1, show ((q.1 : Int) - p.1).natAbs = 1 by omega]; simp

theorem sqd_lt {a b : Nat} {p q : Nat × Nat} (hp : p.1 < a ∧ p.2 < b) (hq : q.1 < a ∧ q.2 < b) : sqd p q < a ^ 2 + b ^ 2 := by
  unfold sqd
  have h1 : ((p.1 : Int) - q.1).natAbs < a := by omega
  have h2 : ((p.2 : Int) - q.2).natAbs < b := by omega
  have := Nat.pow_lt_pow_left h1 (n := 2) (by omega)
  have := Nat.pow_lt_pow_left h2 (n := 2) (by omega)
  omega

theorem unflat {m : Img Nat} {p : Nat × Nat} (h : In m p) : (flat m p / m.ny, flat m p % m.ny) = p := by
  obtain ⟨h1, h2⟩ := h
  have h3 : 0 < m.ny := by omega
  unfold flat
  apply Prod.ext
  · show (p.1 * m.ny + p.2) / m.ny = p.1
    rw [Nat.mul_comm, Nat.mul_add_div h3, Nat.div_eq_of_lt h2, Nat.add_zero]
  · show (p.1 * m.ny + p.2) % m.ny = p.2
    rw [Nat.mul_comm, Nat.mul_add_mod, Nat.mod_eq_of_lt h2]

/-! ### Initialisation -/

/-- invariant of the initialisation; `P` are the pixels that wait in the states already built -/
structure DInv (m : Img Nat) (P : Nat × Nat → Prop) (s : DInit) : Prop where
  wm : s.map.WF
  wo : s.omap.WF
  wd : s.dmap.WF
  wi : s.imap.WF
  nm : s.map.nx = m.nx ∧ s.map.ny = m.ny
  no : s.omap.nx = m.nx ∧ s.omap.ny = m.ny
  nd : s.dmap.nx = m.nx ∧ s.dmap.ny = m.ny
  ni : s.imap.nx = m.nx ∧ s.imap.ny = m.ny
  om : ∀ p, val s.omap p = 0 ∨ val s.omap p = val m p
  seg : ∀ p, val m p ≠ 0 → val s.map p = val m p
  dn : ∀ p, val m p ≠ 0 → val s.omap p = 0 → dval s.dmap p = some 0 ∧ val s.imap p = flat m p
  cl : ∀ p, val m p = 0 → val s.map p ≠ 0 → In m p ∧ (p ∈ s.o ∨ P p) ∧
    ∃ t, Adj t p ∧ val m t ≠ 0 ∧ val s.map p = val m t ∧ dval s.dmap p = some 1 ∧ val s.imap p = flat m t
  un : ∀ p, In m p → val m p = 0 → val s.map p = 0 → dval s.dmap p = none ∧ val s.imap p = npos64
  fr : ∀ p q, val m p ≠ 0 → val s.omap p = 0 → Adj p q → In m q → val s.map q ≠ 0
  ow : ∀ p, p ∈ s.o ∨ P p → val m p = 0 ∧ val s.map p ≠ 0

theorem DInv.st {m P s} (h : DInv m P s) (st) : DInv m P { s with st := st } := by
  obtain ⟨h1, h2, h3, h4, h5, h6, h7, h8, h9, h10, h11, h12, h13, h14, h15⟩ := h
  exact ⟨h1, h2, h3, h4, h5, h6, h7, h8, h9, h10, h11, h12, h13, h14, h15⟩

/-- the invariant without the clause on the border of `p`, which is being processed -/
structure DMid (m : Img Nat) (P : Nat × Nat → Prop) (s : DInit) (p : Nat × Nat) : Prop where
  wm : s.map.WF
  wo : s.omap.WF
  wd : s.dmap.WF
  wi : s.imap.WF
  nm : s.map.nx = m.nx ∧ s.map.ny = m.ny
  no : s.omap.nx = m.nx ∧ s.omap.ny = m.ny
  nd : s.dmap.nx = m.nx ∧ s.dmap.ny = m.ny
  ni : s.imap.nx = m.nx ∧ s.imap.ny = m.ny
  om : ∀ p, val s.omap p = 0 ∨ val s.omap p = val m p
  seg : ∀ p, val m p ≠ 0 → val s.map p = val m p
  dn : ∀ p, val m p ≠ 0 → val s.omap p = 0 → dval s.dmap p = some 0 ∧ val s.imap p = flat m p
  cl : ∀ p, val m p = 0 → val s.map p ≠ 0 → In m p ∧ (p ∈ s.o ∨ P p) ∧
    ∃ t, Adj t p ∧ val m t ≠ 0 ∧ val s.map p = val m t ∧ dval s.dmap p = some 1 ∧ val s.imap p = flat m t
  un : ∀ p, In m p → val m p = 0 → val s.map p = 0 → dval s.dmap p = none ∧ val s.imap p = npos64
  fr : ∀ a q, a ≠ p → val m a ≠ 0 → val s.omap a = 0 → Adj a q → In m q → val s.map q ≠ 0
  ow : ∀ p, p ∈ s.o ∨ P p → val m p = 0 ∧ val s.map p ≠ 0

/-- one neighbour -/
theorem dinitAdd_spec {m : Img Nat} {P : Nat × Nat → Prop} {id : Nat} {p q : Nat × Nat} {s : DInit} (hid : id ≠ 0)
    (hp : val m p = id) (hadj : Adj p q) (hq : In m q) (h : DMid m P s p) :
    ∃ s', dinitAdd id p s q = .ok s' ∧ DMid m P s' p ∧ s'.omap = s.omap ∧
      s'.st = (if val s.omap q = id then [q] else []) ++ s.st ∧ val s'.map q ≠ 0 ∧
      (∀ a, val s.map a ≠ 0 → val s'.map a ≠ 0) := by
  obtain ⟨wm, wo, wd, wi, nm, no, nd, ni, om, seg, dn, cl, un, fr, ow⟩ := h
  unfold In at hq
  unfold dinitAdd
  rw [get_val wo (by omega), Res.ok_bind]
  by_cases h1 : val s.omap q = id
  · rw [if_pos h1, if_pos h1]
    refine ⟨_, rfl, ⟨wm, wo, wd, wi, nm, no, nd, ni, om, seg, dn, cl, un, fr, ow⟩, rfl, rfl, ?_, fun a h => h⟩
    show val s.map q ≠ 0
    have hmq : val m q = id := by
      rcases om q with h | h <;> omega
    rw [seg q (by omega)]; omega
  · rw [if_neg h1, if_neg h1, get_val wm (by omega), Res.ok_bind]
    by_cases h2 : val s.map q = 0
    · rw [if_pos h2]
      obtain ⟨mp, a1, a2, a3, a4, a5, -⟩ := put_val wm (p := q) (by omega) id
      obtain ⟨dp, b1, b2, b3, b4, b5, -⟩ := put_dval wd (p := q) (by omega) (some 1)
      obtain ⟨ip, c1, c2, c3, c4, c5, -⟩ := put_val wi (p := q) (by omega) (p.1 * s.map.ny + p.2)
      rw [a1, Res.ok_bind, b1, Res.ok_bind, c1, Res.ok_bind]
      have hmq : val m q = 0 := by
        by_contra hc
        have := seg q hc
        omega
      have hne : ∀ a, val m a ≠ 0 → a ≠ q := fun a ha e => ha (e ▸ hmq)
      refine ⟨_, rfl, ⟨a2, wo, b2, c2, by simp only; omega, no, by simp only; omega, by simp only; omega, om, ?_, ?_, ?_, ?_, ?_, ?_⟩, rfl, rfl, ?_, ?_⟩
      · intro a ha
        simp only
        rw [a5, if_neg (hne a ha)]; exact seg a ha
      · intro a ha h0
        simp only
        rw [b5, c5, if_neg (hne a ha), if_neg (hne a ha)]; exact dn a ha h0
      · intro a ha h0
        simp only at h0 ⊢
        rw [a5] at h0 ⊢
        rw [b5, c5]
        by_cases e : a = q
        · subst e
          refine ⟨hq, Or.inl (by simp), p, hadj, by omega, ?_, ?_, ?_⟩
          · rw [if_pos rfl]; omega
          · rw [if_pos rfl]
          · rw [if_pos rfl, nm.2]; rfl
        · rw [if_neg e] at h0 ⊢
          rw [if_neg e, if_neg e]
          obtain ⟨k1, k2, k3⟩ := cl a ha h0
          refine ⟨k1, ?_, k3⟩
          rcases k2 with k2 | k2
          · exact Or.inl (by simp [k2])
          · exact Or.inr k2
      · intro a ha hm h0
        simp only at h0 ⊢
        rw [a5] at h0
        by_cases e : a = q
        · rw [if_pos e] at h0; omega
        · rw [if_neg e] at h0
          rw [b5, c5, if_neg e, if_neg e]; exact un a ha hm h0
      · intro a b hap ha h0 hab hb
        simp only
        rw [a5]
        split
        · exact hid
        · exact fr a b hap ha h0 hab hb
      · intro a h
        simp only at h ⊢
        rw [a5]
        by_cases e : a = q
        · rw [if_pos e, e]; exact ⟨hmq, hid⟩
        · rw [if_neg e]
          apply ow
          simpa [e] using h
      · simp only
        rw [a5, if_pos rfl]; exact hid
      · intro a h
        simp only
        rw [a5]
        split
        · exact hid
        · exact h
    · rw [if_neg h2]
      exact ⟨s, rfl, ⟨wm, wo, wd, wi, nm, no, nd, ni, om, seg, dn, cl, un, fr, ow⟩, rfl, by simp, h2, fun a h => h⟩

theorem dinitAdd_fold {m : Img Nat} {P : Nat × Nat → Prop} {id : Nat} {p : Nat × Nat} (hid : id ≠ 0)
    (hp : val m p = id) (l : List (Nat × Nat)) (s : DInit) (hl : ∀ q ∈ l, Adj p q ∧ In m q) (h : DMid m P s p) :
    ∃ s', l.foldlM (dinitAdd id p) s = .ok s' ∧ DMid m P s' p ∧ s'.omap = s.omap ∧
      s'.st = (l.filter fun q => decide (val s.omap q = id)).reverse ++ s.st ∧ (∀ q ∈ l, val s'.map q ≠ 0) ∧
      (∀ a, val s.map a ≠ 0 → val s'.map a ≠ 0) := by
  induction l generalizing s with
  | nil => exact ⟨s, rfl, h, rfl, by simp, by simp, fun a h => h⟩
  | cons q l ih =>
    obtain ⟨s1, a1, a2, a3, a4, a5, a6⟩ := dinitAdd_spec hid hp (hl q (by simp)).1 (hl q (by simp)).2 h
    obtain ⟨s2, b1, b2, b3, b4, b5, b6⟩ := ih s1 (fun q hq => hl q (by simp [hq])) a2
    refine ⟨s2, ?_, b2, b3.trans a3, ?_, ?_, fun a h => b6 a (a6 a h)⟩
    · rw [List.foldlM_cons, a1, Res.ok_bind, b1]
    · rw [b4, a3, a4]
      by_cases e : val s.omap q = id
      · rw [if_pos e, List.filter_cons_of_pos (by simpa using e)]; simp
      · rw [if_neg e, List.filter_cons_of_neg (by simpa using e)]; simp
    · intro r hr
      rcases List.mem_cons.1 hr with rfl | hr
      · exact b6 r a5
      · exact b5 r hr

/-- measure of the flood fill -/
def dmeas (s : DInit) : Nat :=
  10 * todo s.omap + s.st.length + match s.st with | [] => 0 | p :: _ => if val s.omap p = 0 then 5 else 0

theorem dinitPoint_spec {m : Img Nat} {P : Nat × Nat → Prop} {id : Nat} {p : Nat × Nat} {s : DInit} (hid : id ≠ 0)
    (hp : val m p = id) (h : DInv m P s) (hst : ∀ q ∈ s.st, val m q = id) :
    ∃ s', dinitPoint id s p = .ok s' ∧ DInv m P s' ∧ (∀ q ∈ s'.st, val m q = id) ∧ dmeas s' < dmeas { s with st := p :: s.st } ∧
      val s'.omap p = 0 ∧ (∀ q, val s.omap q = 0 → val s'.omap q = 0) := by
  obtain ⟨wm, wo, wd, wi, nm, no, nd, ni, om, seg, dn, cl, un, fr, ow⟩ := h
  have hr : In m p := val_ne (by omega)
  unfold In at hr
  obtain ⟨mp, a1, a2, a3, a4, a5, a6⟩ := put_val wo (p := p) (by omega) 0
  obtain ⟨dp, b1, b2, b3, b4, b5, -⟩ := put_dval wd (p := p) (by omega) (some 0)
  obtain ⟨ip, c1, c2, c3, c4, c5, -⟩ := put_val wi (p := p) (by omega) (p.1 * s.map.ny + p.2)
  have hne : ∀ a, val m a = 0 → a ≠ p := fun a ha e => hid (by rw [← hp, ← e]; exact ha)
  have hmid : DMid m P { s with omap := mp, dmap := dp, imap := ip } p := by
    refine ⟨wm, a2, b2, c2, nm, by simp only; omega, by simp only; omega, by simp only; omega, ?_, seg, ?_, ?_, ?_, ?_, ow⟩
    · intro a
      simp only
      rw [a5]
      split
      · exact Or.inl rfl
      · exact om a
    · intro a ha h0
      simp only at h0 ⊢
      rw [a5] at h0
      rw [b5, c5]
      by_cases e : a = p
      · rw [if_pos e, if_pos e, nm.2, e]; exact ⟨rfl, rfl⟩
      · rw [if_neg e] at h0
        rw [if_neg e, if_neg e]; exact dn a ha h0
    · intro a ha h0
      obtain ⟨k1, k2, t, k3, k4, k5, k6, k7⟩ := cl a ha h0
      simp only
      rw [b5, c5, if_neg (hne a ha), if_neg (hne a ha)]
      exact ⟨k1, k2, t, k3, k4, k5, k6, k7⟩
    · intro a hi ha h0
      simp only
      rw [b5, c5, if_neg (hne a ha), if_neg (hne a ha)]
      exact un a hi ha h0
    · intro a q hap ha h0 haq hq
      simp only at h0 ⊢
      rw [a5, if_neg hap] at h0
      exact fr a q ha h0 haq hq
  obtain ⟨s', r1, r2, r3, r4, r5, r6⟩ := dinitAdd_fold hid hp (nbrs s.map.nx s.map.ny p.1 p.2)
    { s with omap := mp, dmap := dp, imap := ip } (fun q hq => by
      have := (mem_nbrs (by omega)).1 hq
      exact ⟨this.1, by unfold In; omega⟩) hmid
  simp only at r3 r4 r6
  refine ⟨s', ?_, ?_, ?_, ?_, ?_, ?_⟩
  · unfold dinitPoint
    rw [a1, Res.ok_bind, b1, Res.ok_bind, c1, Res.ok_bind, r1]
  · obtain ⟨wm', wo', wd', wi', nm', no', nd', ni', om', seg', dn', cl', un', fr', ow'⟩ := r2
    refine ⟨wm', wo', wd', wi', nm', no', nd', ni', om', seg', dn', cl', un', ?_, ow'⟩
    intro a q ha h0 haq hq
    by_cases e : a = p
    · subst e
      unfold In at hq
      exact r5 q ((mem_nbrs (by omega)).2 ⟨haq, by omega⟩)
    · exact fr' a q e ha h0 haq hq
  · intro q hq
    rw [r4, List.mem_append, List.mem_reverse, List.mem_filter] at hq
    rcases hq with ⟨-, hq⟩ | hq
    · simp only [decide_eq_true_eq] at hq
      rw [a5] at hq
      split at hq
      · omega
      · rcases om q with h | h <;> omega
    · exact hst q hq
  · have hlen : (nbrs s.map.nx s.map.ny p.1 p.2 |>.filter fun q => decide (val mp q = id)).length ≤ 4 :=
      le_trans (List.length_filter_le _ _) (length_nbrs _ _ _ _)
    unfold dmeas
    have h1 := a6 fun a => decide (a ≠ 0)
    simp only [ne_eq, not_true, decide_false, Bool.false_eq_true, if_false, decide_eq_true_eq, Nat.add_zero] at h1
    have hst' : s'.st.length = (nbrs s.map.nx s.map.ny p.1 p.2 |>.filter fun q => decide (val mp q = id)).length + s.st.length := by
      rw [r4]; simp
    simp only [List.length_cons, todo]
    rw [r3]
    have hm5 : (match s'.st with | [] => 0 | q :: _ => if val mp q = 0 then 5 else 0) ≤ 5 := by
      split
      · omega
      · split <;> omega
    by_cases h0 : val s.omap p = 0
    · rw [if_pos h0]
      rw [if_neg (by simpa using h0)] at h1
      simp only [ne_eq] at ⊢
      cases hf : (nbrs s.map.nx s.map.ny p.1 p.2 |>.filter fun q => decide (val mp q = id)).reverse with
      | nil =>
        have hz := congrArg List.length hf
        simp only [List.length_reverse, List.length_nil] at hz
        omega
      | cons q t =>
        have hq : val mp q = id := by
          have : q ∈ (nbrs s.map.nx s.map.ny p.1 p.2 |>.filter fun q => decide (val mp q = id)) := by
            rw [← List.mem_reverse, hf]; simp
          simpa using (List.mem_filter.1 this).2
        rw [hf] at r4
        simp only [List.cons_append] at r4
        have : (match s'.st with | [] => 0 | q :: _ => if val mp q = 0 then 5 else 0) = 0 := by
          rw [r4]; simp [hq, hid]
        omega
    · rw [if_neg h0]
      rw [if_pos (by simpa using h0)] at h1
      simp only [ne_eq] at ⊢
      omega
  · rw [r3, a5, if_pos rfl]
  · intro q hq
    rw [r3, a5]
    split
    · rfl
    · exact hq

theorem dinitLoop_spec {m : Img Nat} {P : Nat × Nat → Prop} {id : Nat} (hid : id ≠ 0) :
    ∀ (n : Nat) (s : DInit), DInv m P s → (∀ q ∈ s.st, val m q = id) → dmeas s < n →
      ∃ s', dinitLoop id n s = .ok s' ∧ DInv m P s' ∧ (∀ q, val s.omap q = 0 → val s'.omap q = 0) := by
  intro n
  induction n with
  | zero => intro s _ _ h; omega
  | succ n ih =>
    intro s hi hst hm
    unfold dinitLoop
    match hs : s.st with
    | [] => exact ⟨s, rfl, hi, fun _ h => h⟩
    | p :: st =>
      simp only
      obtain ⟨s', h1, h2, h3, h4, h5, h6⟩ := dinitPoint_spec (s := { s with st := st }) (p := p) hid
        (hst p (by simp [hs])) (hi.st st) (fun q hq => hst q (by simp only at hq; simp [hs, hq]))
      rw [h1, Res.ok_bind]
      have e : ({ ({ s with st := st } : DInit) with st := p :: ({ s with st := st } : DInit).st } : DInit) = s := by
        show { s with st := p :: st } = s
        rw [← hs]
      rw [e] at h4
      obtain ⟨s2, k1, k2, k3⟩ := ih s' h2 h3 (by omega)
      exact ⟨s2, k1, k2, fun q hq => k3 q (h6 q hq)⟩

/-- the pixels that wait in a list of states -/
def Waits (states : List (Nat × List (Nat × Nat))) (p : Nat × Nat) : Prop := ∃ s ∈ states, p ∈ s.2

theorem todo_le (m : Img Nat) : todo m ≤ m.px.length := List.countP_le_length

theorem dscan_spec (m : Img Nat) (hw : m.WF) :
    ∃ s, for2 m.nx m.ny dscanBody ⟨m, m, Img.fill m.nx m.ny none, Img.fill m.nx m.ny npos64, []⟩ = .ok s ∧
      DInv m (Waits s.states) ⟨s.map, s.omap, s.dmap, s.imap, [], []⟩ ∧ (∀ p, In m p → val s.omap p = 0) ∧
      (∀ st ∈ s.states, ∃ t, val m t = st.1 ∧ st.1 ≠ 0) := by
  have hfv : ∀ p, In m p → dval (Img.fill m.nx m.ny none) p = none ∧ val (Img.fill m.nx m.ny npos64) p = npos64 := by
    intro p hp
    unfold dval val
    have hp' : p.1 < m.nx ∧ p.2 < m.ny := hp
    rw [fill_at, fill_at, if_pos hp', if_pos hp']
    exact ⟨rfl, rfl⟩
  refine Exists.imp ?_ (for2_rule (nx := m.nx) (ny := m.ny) (body := dscanBody)
    (fun x y s => DInv m (Waits s.states) ⟨s.map, s.omap, s.dmap, s.imap, [], []⟩ ∧
      (∀ p, In m p → Before x y p.1 p.2 → val s.omap p = 0) ∧ ∀ st ∈ s.states, ∃ t, val m t = st.1 ∧ st.1 ≠ 0)
    ⟨m, m, Img.fill m.nx m.ny none, Img.fill m.nx m.ny npos64, []⟩ ?_ ?_ ?_)
  · rintro s ⟨h1, h2⟩
    refine ⟨h1, h2.1, fun p hp => h2.2.1 p hp ?_, h2.2.2⟩
    left; exact hp.1
  · refine ⟨⟨hw, hw, fill_wf _ _ _, fill_wf _ _ _, ⟨rfl, rfl⟩, ⟨rfl, rfl⟩, ⟨rfl, rfl⟩, ⟨rfl, rfl⟩, fun p => Or.inr rfl, fun p _ => rfl,
      fun p h h' => absurd h' h, fun p h h' => absurd h h', fun p hp _ _ => hfv p hp, fun p q h h' => absurd h' h, ?_⟩, ?_, ?_⟩
    · rintro p (h | ⟨s, h, -⟩) <;> simp at h
    · intro p _ hb; unfold Before at hb; omega
    · simp
  · rintro x y s hx hy ⟨hi, hb, hst⟩
    have hin : In m (x, y) := ⟨hx, hy⟩
    have hno := hi.no
    have hnm := hi.nm
    have hwo := hi.wo
    have hwm := hi.wm
    simp only at hno hnm hwo hwm
    unfold dscanBody
    rw [show s.omap.get x y = .ok (val s.omap (x, y)) from get_val hwo (p := (x, y)) (by simp only; omega), Res.ok_bind]
    by_cases h0 : val s.omap (x, y) = 0
    · rw [if_pos h0]
      refine ⟨s, rfl, hi, ?_, hst⟩
      intro p hp hbp
      by_cases e : p = (x, y)
      · rw [e]; exact h0
      · refine hb p hp ?_
        unfold Before at hbp ⊢
        have : ¬ (p.1 = x ∧ p.2 = y) := fun h => e (Prod.ext h.1 h.2)
        omega
    · rw [if_neg h0, show s.map.get x y = .ok (val s.map (x, y)) from get_val hwm (p := (x, y)) (by simp only; omega), Res.ok_bind]
      have hmv : val m (x, y) = val s.map (x, y) := by
        have := hi.om (x, y)
        simp only at this
        have h2 := hi.seg (x, y) (by omega)
        simp only at h2
        omega
      have hid : val s.map (x, y) ≠ 0 := by
        have := hi.om (x, y)
        simp only at this
        omega
      obtain ⟨f, f1, f2, f3, f4, f5, f6⟩ := dinitPoint_spec (p := (x, y)) hid hmv hi (by simp)
      have hlen : s.map.px.length = m.nx * m.ny := by rw [hwm, hnm.1, hnm.2]
      have hlo : s.omap.px.length = m.nx * m.ny := by rw [hwo, hno.1, hno.2]
      obtain ⟨g, g1, g2, g3⟩ := dinitLoop_spec hid (10 * s.map.px.length + 10) f f2 f3 (by
        have h1 : dmeas ⟨s.map, s.omap, s.dmap, s.imap, [(x, y)], []⟩ ≤ 10 * s.map.px.length + 6 := by
          unfold dmeas
          have := todo_le s.omap
          simp only [List.length_cons, List.length_nil]
          split <;> omega
        exact lt_of_lt_of_le f4 (le_trans h1 (by omega)))
      rw [f1, Res.ok_bind, g1, Res.ok_bind]
      refine ⟨_, rfl, ?_, ?_, ?_⟩
      · obtain ⟨i1, i2, i3, i4, i5, i6, i7, i8, i9, i10, i11, i12, i13, i14, i15⟩ := g2
        have hP : ∀ p, (p ∈ ([] : List (Nat × Nat)) ∨ Waits (s.states ++ [(val s.map (x, y), g.o)]) p) ↔ (p ∈ g.o ∨ Waits s.states p) := by
          intro p
          unfold Waits
          constructor
          · rintro (h | ⟨st, h, h'⟩)
            · simp at h
            · rw [List.mem_append] at h
              rcases h with h | h
              · exact Or.inr ⟨st, h, h'⟩
              · simp only [List.mem_singleton] at h
                subst h
                exact Or.inl h'
          · rintro (h | ⟨st, h, h'⟩)
            · exact Or.inr ⟨(val s.map (x, y), g.o), by simp, h⟩
            · exact Or.inr ⟨st, by simp [h], h'⟩
        refine ⟨i1, i2, i3, i4, i5, i6, i7, i8, i9, i10, i11, ?_, i13, i14, ?_⟩
        · intro p hp h0
          obtain ⟨k1, k2, k3⟩ := i12 p hp h0
          exact ⟨k1, (hP p).2 k2, k3⟩
        · intro p hp
          exact i15 p ((hP p).1 hp)
      · intro p hp hbp
        simp only
        by_cases e : p = (x, y)
        · rw [e]; exact g3 _ f5
        · refine g3 _ (f6 _ (hb p hp ?_))
          unfold Before at hbp ⊢
          have : ¬ (p.1 = x ∧ p.2 = y) := fun h => e (Prod.ext h.1 h.2)
          omega
      · intro st h
        simp only [List.mem_append, List.mem_singleton] at h
        rcases h with h | h
        · exact hst st h
        · subst h
          exact ⟨(x, y), hmv, hid⟩
  · rintro x s hx ⟨hi, hb, hst⟩
    refine ⟨hi, fun p hp hbp => hb p hp ?_, hst⟩
    unfold Before at hbp ⊢
    have := hp.2
    omega

/-! ### Growth -/

/-- the pixel that a map of indices points to -/
def src (m i : Img Nat) (p : Nat × Nat) : Nat × Nat := (val i p / m.ny, val i p % m.ny)

/-- invariant of the growth; `Q` are the pixels still to be looked at -/
structure GInv (m : Img Nat) (Q : Nat × Nat → Prop) (s : Grow) : Prop where
  wm : s.map.WF
  wd : s.dmap.WF
  wi : s.imap.WF
  nm : s.map.nx = m.nx ∧ s.map.ny = m.ny
  nd : s.dmap.nx = m.nx ∧ s.dmap.ny = m.ny
  ni : s.imap.nx = m.nx ∧ s.imap.ny = m.ny
  dd : ∀ p d, dval s.dmap p = some d → In m p ∧ In m (src m s.imap p) ∧ val m (src m s.imap p) ≠ 0 ∧
    val s.imap p = flat m (src m s.imap p) ∧ d = sqd p (src m s.imap p) ∧ val s.map p ≠ 0 ∧ ∃ t, val m t = val s.map p
  sg : ∀ p, val m p ≠ 0 → dval s.dmap p = some 0 ∧ val s.map p = val m p
  un : ∀ p, In m p → dval s.dmap p = none → val s.map p = 0 ∧ val s.imap p = npos64
  lo : ∀ p q, ¬ Q p → dval s.dmap p ≠ none → Adj p q → In m q → ∃ e, dval s.dmap q = some e ∧ e ≤ sqd q (src m s.imap p)
  ow : ∀ p ∈ s.o, Q p
  wt : ∀ p, Q p → dval s.dmap p ≠ none

theorem dval_in {m : Img Nat} {d : Img (Option Nat)} (hd : d.nx = m.nx ∧ d.ny = m.ny) {p} (h : dval d p ≠ none) : In m p := by
  by_contra hc
  unfold dval at h
  rw [at_none (by rw [hd.1, hd.2]; exact hc)] at h
  exact h rfl

/-- the bound of the squared distances -/
def bnd (m : Img Nat) : Nat := m.nx ^ 2 + m.ny ^ 2

/-- one neighbour: afterwards the clause `lo` holds for it too; `Q p` holds during the visit of `p` -/
theorem growAdd_spec {m : Img Nat} {Q : Nat × Nat → Prop} {id : Nat} {p q : Nat × Nat} {s : Grow} (hid : ∃ t, val m t = id ∧ id ≠ 0)
    (hp : dval s.dmap p ≠ none) (ha : Adj p q) (hq : In m q) (h : GInv m Q s) :
    ∃ s', growAdd id p s q = .ok s' ∧ GInv m (fun a => Q a ∨ a ∈ s'.o) s' ∧
      (∃ e, dval s'.dmap q = some e ∧ e ≤ sqd q (src m s'.imap p)) ∧
      src m s'.imap p = src m s.imap p ∧ dval s'.dmap p = dval s.dmap p ∧
      (∀ a e, dval s.dmap a = some e → ∃ e', dval s'.dmap a = some e' ∧ e' ≤ e) ∧
      s'.o.length + potI (bnd m) s'.dmap ≤ s.o.length + potI (bnd m) s.dmap ∧ (∀ a ∈ s.o, a ∈ s'.o) := by
  obtain ⟨wm, wd, wi, nm, nd, ni, dd, sg, un, lo, ow, wt⟩ := h
  have hpi := dval_in nd hp
  unfold In at hq hpi
  unfold growAdd
  rw [get_val wi (by omega), Res.ok_bind, get_dval wd (by omega), Res.ok_bind]
  have hsrc : (val s.imap p / s.imap.ny, val s.imap p % s.imap.ny) = src m s.imap p := by unfold src; rw [ni.2]
  simp only [hsrc]
  obtain ⟨dp, hdp⟩ := Option.ne_none_iff_exists'.1 hp
  obtain ⟨k1, k2, k3, k4, k5, k6, k7⟩ := dd p dp hdp
  by_cases hf : farther (dval s.dmap q) (sqd q (src m s.imap p)) = true
  · rw [if_pos hf]
    obtain ⟨mp, a1, a2, a3, a4, a5, -⟩ := put_val wm (p := q) (by omega) id
    obtain ⟨ip, c1, c2, c3, c4, c5, -⟩ := put_val wi (p := q) (by omega) (val s.imap p)
    obtain ⟨db, b1, b2, b3, b4, b5, b6⟩ := put_dval wd (p := q) (by omega) (some (sqd q (src m s.imap p)))
    rw [a1, Res.ok_bind, c1, Res.ok_bind, b1, Res.ok_bind]
    have hpq : p ≠ q := ha.ne
    have hs : ∀ a, src m ip a = if a = q then src m s.imap p else src m s.imap a := by
      intro a
      unfold src
      rw [c5]
      split <;> rfl
    have hdec : ∀ e, dval s.dmap q = some e → sqd q (src m s.imap p) < e := by
      intro e he
      rw [he] at hf
      simpa [farther] using hf
    have hmq : val m q = 0 := by
      by_contra hc
      have := hdec 0 (sg q hc).1
      omega
    have hne : ∀ a, val m a ≠ 0 → a ≠ q := fun a ha e => ha (e ▸ hmq)
    have hmono : ∀ a e, dval s.dmap a = some e → ∃ e', dval db a = some e' ∧ e' ≤ e := by
      intro a e he
      rw [b5]
      by_cases h1 : a = q
      · rw [if_pos h1]
        exact ⟨_, rfl, (hdec e (h1 ▸ he)).le⟩
      · rw [if_neg h1]; exact ⟨e, he, le_refl _⟩
    refine ⟨_, rfl, ⟨a2, b2, c2, by simp only; omega, by simp only; omega, by simp only; omega, ?_, ?_, ?_, ?_, ?_, ?_⟩, ?_, ?_, ?_, hmono, ?_, ?_⟩
    · intro a d hd
      simp only at hd ⊢
      rw [b5] at hd
      rw [hs, c5, a5]
      by_cases e : a = q
      · rw [if_pos e] at hd
        rw [if_pos e, if_pos e, if_pos e]
        obtain ⟨t, ht, hid⟩ := hid
        refine ⟨e ▸ hq, k2, k3, k4, ?_, hid, t, ht⟩
        rw [e]; exact (Option.some.inj hd).symm
      · rw [if_neg e] at hd
        rw [if_neg e, if_neg e, if_neg e]
        exact dd a d hd
    · intro a ha
      simp only
      rw [b5, a5, if_neg (hne a ha), if_neg (hne a ha)]
      exact sg a ha
    · intro a hi h0
      simp only at h0 ⊢
      rw [b5] at h0
      by_cases e : a = q
      · rw [if_pos e] at h0; simp at h0
      · rw [if_neg e] at h0
        rw [a5, c5, if_neg e, if_neg e]
        exact un a hi h0
    · intro a b hQ hd hab hb
      simp only at hQ hd ⊢
      have hQ' : ¬ Q a := fun h => hQ (Or.inl h)
      have haq : a ≠ q := fun h => hQ (Or.inr (by simp [h]))
      rw [b5, if_neg haq] at hd
      obtain ⟨e, h1, h2⟩ := lo a b hQ' hd hab hb
      obtain ⟨e', h3, h4⟩ := hmono b e h1
      refine ⟨e', h3, ?_⟩
      rw [hs, if_neg haq]; omega
    · intro a h
      exact Or.inr h
    · intro a h
      simp only at h ⊢
      rw [b5]
      split
      · simp
      · rename_i e
        rcases h with h | h
        · exact wt a h
        · simp only [List.mem_cons, e, false_or] at h
          exact wt a (ow a h)
    · simp only
      rw [b5, if_pos rfl, hs, if_neg hpq]
      exact ⟨_, rfl, le_refl _⟩
    · simp only
      rw [hs, if_neg hpq]
    · simp only
      rw [b5, if_neg hpq]
    · simp only [List.length_cons]
      have h1 := b6 (bnd m)
      have h2 : pot (bnd m) (dval s.dmap q) ≥ sqd q (src m s.imap p) + 1 := by
        cases h : dval s.dmap q with
        | none => exact sqd_lt hq k2
        | some e => exact hdec e h
      have h3 : pot (bnd m) (some (sqd q (src m s.imap p))) = sqd q (src m s.imap p) := rfl
      omega
    · intro a h
      simp [h]
  · rw [if_neg hf]
    refine ⟨s, rfl, ⟨wm, wd, wi, nm, nd, ni, dd, sg, un, ?_, fun a h => Or.inr h, ?_⟩, ?_, rfl, rfl, fun a e h => ⟨e, h, le_refl _⟩, le_refl _, fun a h => h⟩
    · intro a b hQ
      exact lo a b (fun h => hQ (Or.inl h))
    · rintro a (h | h)
      · exact wt a h
      · exact wt a (ow a h)
    · cases h : dval s.dmap q with
      | none => rw [h] at hf; simp [farther] at hf
      | some e =>
        rw [h] at hf
        simp only [farther, decide_eq_true_eq, not_lt] at hf
        exact ⟨e, rfl, hf⟩

theorem GInv.mono {m Q Q' s} (h : GInv m Q s) (hQ : ∀ p, Q p ↔ Q' p) : GInv m Q' s := by
  have : Q = Q' := funext fun p => propext (hQ p)
  rw [← this]; exact h

theorem growFold_spec {m : Img Nat} {Q : Nat × Nat → Prop} {id : Nat} {p : Nat × Nat} (hid : ∃ t, val m t = id ∧ id ≠ 0)
    (l : List (Nat × Nat)) (s : Grow) (hp : dval s.dmap p ≠ none) (hl : ∀ q ∈ l, Adj p q ∧ In m q) (h : GInv m Q s) :
    ∃ s', l.foldlM (growAdd id p) s = .ok s' ∧ GInv m (fun a => Q a ∨ a ∈ s'.o) s' ∧
      (∀ q ∈ l, ∃ e, dval s'.dmap q = some e ∧ e ≤ sqd q (src m s'.imap p)) ∧
      src m s'.imap p = src m s.imap p ∧ dval s'.dmap p = dval s.dmap p ∧
      (∀ a e, dval s.dmap a = some e → ∃ e', dval s'.dmap a = some e' ∧ e' ≤ e) ∧
      s'.o.length + potI (bnd m) s'.dmap ≤ s.o.length + potI (bnd m) s.dmap ∧ (∀ a ∈ s.o, a ∈ s'.o) := by
  induction l generalizing s Q with
  | nil =>
    refine ⟨s, rfl, h.mono fun a => ⟨Or.inl, fun ha => ha.elim (fun h => h) (h.ow a)⟩, by simp, rfl, rfl, fun a e h => ⟨e, h, le_refl _⟩, le_refl _, fun a h => h⟩
  | cons q l ih =>
    obtain ⟨s1, a1, a2, a3, a4, a5, a6, a7, a8⟩ := growAdd_spec hid hp (hl q (by simp)).1 (hl q (by simp)).2 h
    obtain ⟨s2, b1, b2, b3, b4, b5, b6, b7, b8⟩ := ih s1 (by rw [a5]; exact hp) (fun q hq => hl q (by simp [hq])) a2
    refine ⟨s2, ?_, ?_, ?_, b4.trans a4, b5.trans a5, ?_, by omega, fun a h => b8 a (a8 a h)⟩
    · rw [List.foldlM_cons, a1, Res.ok_bind, b1]
    · refine b2.mono fun a => ?_
      have := b8 a
      tauto
    · intro r hr
      rcases List.mem_cons.1 hr with rfl | hr
      · obtain ⟨e, h1, h2⟩ := a3
        obtain ⟨e', h3, h4⟩ := b6 _ _ h1
        exact ⟨e', h3, by rw [b4]; omega⟩
      · exact b3 r hr
    · intro a e h
      obtain ⟨e1, h1, h2⟩ := a6 a e h
      obtain ⟨e2, h3, h4⟩ := b6 a e1 h1
      exact ⟨e2, h3, by omega⟩

/-- `process_point` takes `p` off the list of pixels to look at, unless it is put back. -/
theorem growPoint_spec {m : Img Nat} {Q : Nat × Nat → Prop} {id : Nat} {p : Nat × Nat} {s : Grow} (hid : ∃ t, val m t = id ∧ id ≠ 0)
    (h : GInv m (fun a => a = p ∨ Q a) s) (ho : ∀ a ∈ s.o, Q a) :
    ∃ s', growPoint id s p = .ok s' ∧ GInv m (fun a => Q a ∨ a ∈ s'.o) s' ∧
      s'.o.length + potI (bnd m) s'.dmap ≤ s.o.length + potI (bnd m) s.dmap ∧ (∀ a ∈ s.o, a ∈ s'.o) := by
  have hp := h.wt p (Or.inl rfl)
  have hpi := dval_in h.nd hp
  have hnm := h.nm
  unfold In at hpi
  obtain ⟨s', a1, a2, a3, a4, a5, a6, a7, a8⟩ := growFold_spec hid (nbrs s.map.nx s.map.ny p.1 p.2) s hp
    (fun q hq => by
      have := (mem_nbrs (by omega)).1 hq
      exact ⟨this.1, by unfold In; omega⟩) h
  refine ⟨s', a1, ?_, a7, a8⟩
  obtain ⟨wm, wd, wi, nm, nd, ni, dd, sg, un, lo, ow, wt⟩ := a2
  refine ⟨wm, wd, wi, nm, nd, ni, dd, sg, un, ?_, fun a h => Or.inr h, ?_⟩
  · intro a b hQ hd hab hb
    by_cases e : a = p
    · subst e
      unfold In at hb
      exact a3 b ((mem_nbrs (by omega)).2 ⟨hab, by omega⟩)
    · exact lo a b (by tauto) hd hab hb
  · rintro a (h | h)
    · exact wt a (Or.inl (Or.inr h))
    · exact wt a (Or.inr h)

theorem growAll_spec {m : Img Nat} {Q : Nat × Nat → Prop} {id : Nat} (hid : ∃ t, val m t = id ∧ id ≠ 0) (l : List (Nat × Nat)) (s : Grow)
    (h : GInv m (fun a => a ∈ l ∨ Q a) s) (ho : ∀ a ∈ s.o, Q a) :
    ∃ s', l.foldlM (growPoint id) s = .ok s' ∧ GInv m (fun a => Q a ∨ a ∈ s'.o) s' ∧
      s'.o.length + potI (bnd m) s'.dmap ≤ s.o.length + potI (bnd m) s.dmap ∧ (∀ a ∈ s.o, a ∈ s'.o) := by
  induction l generalizing s Q with
  | nil =>
    refine ⟨s, rfl, h.mono fun a => ?_, le_refl _, fun a h => h⟩
    have := ho a
    simp; tauto
  | cons p l ih =>
    obtain ⟨s1, a1, a2, a3, a4⟩ := growPoint_spec (Q := fun a => a ∈ l ∨ Q a) (p := p) hid
      (h.mono fun a => by simp only [List.mem_cons]; tauto) (fun a h => Or.inr (ho a h))
    obtain ⟨s2, b1, b2, b3, b4⟩ := ih (Q := fun a => Q a ∨ a ∈ s1.o) s1 (a2.mono fun a => by tauto) (fun a h => Or.inr h)
    refine ⟨s2, ?_, b2.mono fun a => ?_, by omega, fun a h => b4 a (a4 a h)⟩
    · rw [List.foldlM_cons, a1, Res.ok_bind, b1]
    · have := b4 a
      tauto

/-- the number of pixels that wait in the states -/
def pend (states : List (Nat × List (Nat × Nat))) : Nat := (states.map fun s => s.2.length).sum

theorem growRound_spec {m : Img Nat} (states : List (Nat × List (Nat × Nat))) :
    ∀ (Q : Nat × Nat → Prop) (s : Grow), (∀ st ∈ states, ∃ t, val m t = st.1 ∧ st.1 ≠ 0) →
      GInv m (fun a => Waits states a ∨ Q a) s →
    ∃ st' s' b, growRound states s = .ok (st', s', b) ∧ GInv m (fun a => Waits st' a ∨ Q a) s' ∧
      (∀ st ∈ st', ∃ t, val m t = st.1 ∧ st.1 ≠ 0) ∧ (b = true → st' = states ∧ s' = s ∧ pend states = 0) ∧
      (b = false → 0 < pend states) ∧ pend st' + potI (bnd m) s'.dmap ≤ potI (bnd m) s.dmap := by
  induction states with
  | nil =>
    intro Q s _ h
    exact ⟨[], s, true, rfl, h, by simp, fun _ => ⟨rfl, rfl, rfl⟩, by simp, by simp [pend]⟩
  | cons st r ih =>
    intro Q s hid h
    obtain ⟨id, o⟩ := st
    unfold growRound
    by_cases he : o = []
    · subst he
      rw [if_pos rfl]
      have hW : ∀ (r : List (Nat × List (Nat × Nat))) a, Waits ((id, []) :: r) a ↔ Waits r a := by
        intro r a; unfold Waits; simp
      obtain ⟨r', s', b, a1, a2, a4, a5, a6, a7⟩ := ih Q s (fun st h => hid st (by simp [h]))
        (h.mono fun a => by rw [hW])
      rw [a1, Res.ok_bind]
      refine ⟨_, _, _, rfl, a2.mono fun a => by rw [hW], ?_, ?_, ?_, ?_⟩
      · intro st h
        rcases List.mem_cons.1 h with rfl | h
        · exact hid _ (by simp)
        · exact a4 st h
      · intro h
        obtain ⟨h1, h2, h3⟩ := a5 h
        exact ⟨by rw [h1], h2, by simpa [pend] using h3⟩
      · intro h
        have := a6 h
        simpa [pend] using this
      · simpa [pend] using a7
    · rw [if_neg he]
      have hW : ∀ o (r : List (Nat × List (Nat × Nat))) a, Waits ((id, o) :: r) a ↔ a ∈ o ∨ Waits r a := by
        intro o r a; unfold Waits; simp
      have h0 : GInv m (fun a => a ∈ o ∨ (Waits r a ∨ Q a)) { s with o := [] } := by
        obtain ⟨wm, wd, wi, nm, nd, ni, dd, sg, un, lo, ow, wt⟩ := h.mono (Q' := fun a => a ∈ o ∨ (Waits r a ∨ Q a)) fun a => by
          rw [hW]; tauto
        exact ⟨wm, wd, wi, nm, nd, ni, dd, sg, un, lo, by simp, wt⟩
      obtain ⟨s1, a1, a2, a3, a4⟩ := growAll_spec (hid (id, o) (by simp)) o { s with o := [] } h0 (by simp)
      rw [a1, Res.ok_bind]
      obtain ⟨r', s', b, b1, b2, b4, b5, b6, b7⟩ := ih (fun a => Q a ∨ a ∈ s1.o) s1 (fun st h => hid st (by simp [h]))
        (a2.mono fun a => by tauto)
      rw [b1, Res.ok_bind]
      refine ⟨_, _, _, rfl, b2.mono fun a => by rw [hW]; tauto, ?_, by simp, ?_, ?_⟩
      · intro st h
        rcases List.mem_cons.1 h with rfl | h
        · exact hid (id, o) (by simp)
        · exact b4 st h
      · intro _
        have : 0 < o.length := List.length_pos_of_ne_nil he
        simp [pend]; omega
      · simp only [pend, List.map_cons, List.sum_cons, List.length_nil] at a3 b7 ⊢
        omega

theorem growLoop_spec {m : Img Nat} : ∀ (n : Nat) (states : List (Nat × List (Nat × Nat))) (s : Grow),
    (∀ st ∈ states, ∃ t, val m t = st.1 ∧ st.1 ≠ 0) → GInv m (Waits states) s →
    potI (bnd m) s.dmap + (if pend states = 0 then 0 else 1) < n →
    ∃ s', growLoop n states s = .ok s' ∧ GInv m (fun _ => False) s' := by
  intro n
  induction n with
  | zero => intro _ _ _ _ h; omega
  | succ n ih =>
    intro states s hid h hn
    obtain ⟨st', s', b, a1, a2, a3, a4, a5, a6⟩ := growRound_spec states (fun _ => False) s hid
      (h.mono fun a => by tauto)
    unfold growLoop
    rw [a1, Res.ok_bind]
    simp only
    cases b with
    | true =>
      rw [if_pos rfl]
      obtain ⟨h1, h2, h3⟩ := a4 rfl
      refine ⟨s', rfl, a2.mono fun a => ?_⟩
      simp only [or_false, iff_false]
      rintro ⟨st, hs, ha⟩
      rw [h1] at hs
      have : st.2.length ≤ pend states := List.single_le_sum (by simp) _ (List.mem_map_of_mem (f := fun s : Nat × List (Nat × Nat) => s.2.length) hs)
      have := List.length_pos_of_mem ha
      omega
    | false =>
      rw [if_neg (by simp)]
      have := a5 rfl
      refine ih st' s' a3 (a2.mono fun a => by tauto) ?_
      rw [if_neg (by omega)] at hn
      split <;> omega

end Verif.Astro
