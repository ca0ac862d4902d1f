import Verif.Astro.Deblend
import Verif.Astro.WalkProps
/-!
# The walk over a segment, with what is done for each position
-/
namespace Verif.Astro
open Verif

/-- one position of the walk -/
theorem walkPoint_facts {seg : Img Nat} {cur : Nat} {w w' : Walk} {p : Nat × Nat} (hs : seg.WF) (hv : w.vis.WF) (hd : w.vis.nx = seg.nx ∧ w.vis.ny = seg.ny)
    (hp : p.1 < seg.nx ∧ p.2 < seg.ny) (h : walkPoint seg cur w p = .ok w') :
    w'.vis.WF ∧ (w'.vis.nx = seg.nx ∧ w'.vis.ny = seg.ny) ∧ (∀ q, val w.vis q = cur → val w'.vis q = cur) ∧
      (∀ q, q ∈ w'.nxt ↔ q ∈ w.nxt ∨ (val w'.vis q = cur ∧ val w.vis q ≠ cur)) ∧
      w'.sids = w.sids ++ ([p].filter fun q => decide (val seg q = cur)).map (flat seg) ∧
      ∀ {σ : Type} (f : σ → Nat × Nat → Nat → Res σ) (a : σ), walkPointA seg cur f (w, a) p = (f a p (val seg p) >>= fun a => .ok (w', a)) := by
  unfold walkPoint at h
  rw [get_val hs hp, Res.ok_bind] at h
  by_cases hc : val seg p = cur
  · rw [if_pos hc] at h
    obtain ⟨x, h1, h2, h3, h4, h5, h6, h7, -⟩ := walkAdd_fold cur (nbrs seg.nx seg.ny p.1 p.2) { w with sids := w.sids ++ [p.1 * seg.ny + p.2] } hv
      (fun q hq => by simp only [hd.1, hd.2]; exact ((mem_nbrs hp).1 hq).2) (nodup_nbrs _ _ _ _)
    rw [h1, Res.ok.injEq] at h
    subst h
    simp only at h3 h4 h5 h6 h7
    refine ⟨h2, ⟨by rw [h3, hd.1], by rw [h4, hd.2]⟩, ?_, ?_, ?_, ?_⟩
    · intro q hq
      rw [h7]
      split
      · rfl
      · exact hq
    · intro q
      rw [h6, List.mem_append, List.mem_filter, decide_eq_true_eq, h7]
      by_cases hm : q ∈ nbrs seg.nx seg.ny p.1 p.2
      · rw [if_pos hm]; tauto
      · rw [if_neg hm]; tauto
    · rw [h5]
      simp [hc, flat]
    · intro σ f a
      unfold walkPointA
      rw [get_val hs hp, Res.ok_bind]
      simp only
      congr 1
      funext b
      rw [if_pos hc, h1, Res.ok_bind]
  · rw [if_neg hc, Res.ok.injEq] at h
    subst h
    refine ⟨hv, hd, fun q hq => hq, fun q => ?_, ?_, ?_⟩
    · constructor
      · exact Or.inl
      · rintro (h | ⟨h, h'⟩)
        · exact h
        · exact absurd h h'
    · simp [hc]
    · intro σ f a
      unfold walkPointA
      rw [get_val hs hp, Res.ok_bind]
      simp only
      congr 1
      funext b
      rw [if_neg hc]

theorem res_assoc {α β γ : Type} (x : Res α) (f : α → Res β) (g : β → Res γ) : (x >>= f) >>= g = x >>= fun a => f a >>= g := by
  cases x <;> rfl

/-- one level of the walk -/
theorem walkLevel_facts {seg : Img Nat} {cur : Nat} (hs : seg.WF) : ∀ (l : List (Nat × Nat)) (w w' : Walk), w.vis.WF → (w.vis.nx = seg.nx ∧ w.vis.ny = seg.ny) →
    (∀ p ∈ l, p.1 < seg.nx ∧ p.2 < seg.ny) → l.foldlM (walkPoint seg cur) w = .ok w' →
    w'.vis.WF ∧ (w'.vis.nx = seg.nx ∧ w'.vis.ny = seg.ny) ∧ (∀ q, val w.vis q = cur → val w'.vis q = cur) ∧
      (∀ q, q ∈ w'.nxt ↔ q ∈ w.nxt ∨ (val w'.vis q = cur ∧ val w.vis q ≠ cur)) ∧
      w'.sids = w.sids ++ (l.filter fun q => decide (val seg q = cur)).map (flat seg) ∧
      ∀ {σ : Type} (f : σ → Nat × Nat → Nat → Res σ) (a : σ),
        l.foldlM (walkPointA seg cur f) (w, a) = (l.foldlM (fun a p => f a p (val seg p)) a >>= fun a => .ok (w', a))
  | [], w, w', hv, hd, _, h => by
    simp only [List.foldlM_nil, Res.pure_def, Res.ok.injEq] at h
    subst h
    refine ⟨hv, hd, fun q hq => hq, fun q => ?_, by simp, fun f a => rfl⟩
    constructor
    · exact Or.inl
    · rintro (h | ⟨h, h'⟩)
      · exact h
      · exact absurd h h'
  | p :: l, w, w', hv, hd, hl, h => by
    rw [List.foldlM_cons, Res.bind_eq_ok] at h
    obtain ⟨x, hx, h⟩ := h
    obtain ⟨a1, a2, a3, a4, a5, a6⟩ := walkPoint_facts hs hv hd (hl p (by simp)) hx
    obtain ⟨b1, b2, b3, b4, b5, b6⟩ := walkLevel_facts hs l x w' a1 a2 (fun q hq => hl q (by simp [hq])) h
    refine ⟨b1, b2, fun q hq => b3 q (a3 q hq), fun q => ?_, ?_, ?_⟩
    · rw [b4, a4]
      have h1 := a3 q
      have h2 := b3 q
      tauto
    · rw [b5, a5, List.append_assoc, ← List.map_append, ← List.filter_append]; rfl
    · intro σ f a
      rw [List.foldlM_cons, List.foldlM_cons, a6, res_assoc, res_assoc]
      congr 1
      funext b
      rw [Res.ok_bind, b6]

/-- the whole walk: `seen` are the positions looked at, in order -/
theorem walkLoop_facts {seg : Img Nat} {cur : Nat} (hs : seg.WF) (hcur : cur ≠ 0) : ∀ (n : Nat) (w w' : Walk), w.vis.WF → (w.vis.nx = seg.nx ∧ w.vis.ny = seg.ny) →
    (∀ p ∈ w.nxt, p.1 < seg.nx ∧ p.2 < seg.ny) → walkLoop seg cur n w = .ok w' → ∃ seen : List (Nat × Nat),
      (∀ q, val w.vis q = cur → val w'.vis q = cur) ∧
      (∀ q, q ∈ seen ↔ q ∈ w.nxt ∨ (val w'.vis q = cur ∧ val w.vis q ≠ cur)) ∧
      w'.sids = w.sids ++ (seen.filter fun q => decide (val seg q = cur)).map (flat seg) ∧
      ∀ {σ : Type} (f : σ → Nat × Nat → Nat → Res σ) (a : σ),
        walkLoopA seg cur f n (w, a) = (seen.foldlM (fun a p => f a p (val seg p)) a >>= fun a => .ok (w', a))
  | 0, _, _, _, _, _, h => by cases h
  | n + 1, w, w', hv, hd, hl, h => by
    unfold walkLoop at h
    by_cases h0 : w.nxt = []
    · rw [if_pos h0, Res.ok.injEq] at h
      subst h
      refine ⟨[], fun q hq => hq, fun q => ?_, by simp, fun f a => ?_⟩
      · rw [h0]
        simp only [List.not_mem_nil, false_or, false_iff]
        exact fun h => h.2 h.1
      · simp only [walkLoopA]
        rw [if_pos h0]
        rfl
    · rw [if_neg h0, Res.bind_eq_ok] at h
      obtain ⟨x, hx, h⟩ := h
      obtain ⟨a1, a2, a3, a4, a5, a6⟩ := walkLevel_facts (cur := cur) hs w.nxt { w with nxt := [] } x hv hd hl hx
      simp only [List.not_mem_nil, false_or] at a4
      obtain ⟨seen, b3, b4, b5, b6⟩ := walkLoop_facts hs hcur n x w' a1 a2 (fun p hp => by
        have := val_ne (m := x.vis) (p := p) (by rw [((a4 p).1 hp).1]; exact hcur)
        rwa [a2.1, a2.2] at this) h
      refine ⟨w.nxt ++ seen, fun q hq => b3 q (a3 q hq), fun q => ?_, ?_, fun f a => ?_⟩
      · rw [List.mem_append, b4, a4]
        have h1 := a3 q
        have h2 := b3 q
        simp only at h1
        tauto
      · rw [b5, a5, List.filter_append, List.map_append, List.append_assoc]
      · simp only [walkLoopA]
        rw [if_neg h0, a6, res_assoc, List.foldlM_append, res_assoc]
        congr 1
        funext b
        rw [Res.ok_bind, b6]

/-- Spec: `q` is connected to `o` by steps through pixels with the label of `o` -/
def Linked (seg : Img Nat) (o q : Nat × Nat) : Prop := Relation.ReflTransGen (fun a b => Adj a b ∧ val seg b = val seg o) o q

theorem Linked.val {seg : Img Nat} {o q : Nat × Nat} (h : Linked seg o q) : Astro.val seg q = Astro.val seg o := by
  induction h with
  | refl => rfl
  | tail _ h _ => exact h.2

/-- the walk from `o`: the pixels collected are `P`, those connected to `o`, and `o` is there twice if it is not alone -/
theorem walkA_spec {seg vis : Img Nat} {o : Nat × Nat} (hs : seg.WF) (hv : vis.WF) (hd : vis.nx = seg.nx ∧ vis.ny = seg.ny)
    (hcur : val seg o ≠ 0) (hfresh : ∀ q, val vis q ≠ val seg o) :
    ∃ (w : Walk) (seen R : List (Nat × Nat)), w.vis.WF ∧ (w.vis.nx = seg.nx ∧ w.vis.ny = seg.ny) ∧
      (∀ q, val w.vis q = val seg o ∨ val w.vis q = val vis q) ∧ w.sids = (o :: R).map (flat seg) ∧
      (seen.filter fun q => decide (val seg q = val seg o)) = o :: R ∧ R.Nodup ∧ (∀ q, q ∈ o :: R ↔ Linked seg o q) ∧ (R = [] ∨ o ∈ R ∧ ∃ p ∈ R, p ≠ o) ∧
      (∀ q, q ∈ seen ↔ q = o ∨ (q.1 < seg.nx ∧ q.2 < seg.ny ∧ ∃ p, Linked seg o p ∧ Adj p q)) ∧
      ∀ {σ : Type} (f : σ → Nat × Nat → Nat → Res σ) (a : σ),
        walkLoopA seg (val seg o) f (vis.px.length + 3) (⟨vis, [o], []⟩, a) = (seen.foldlM (fun a p => f a p (val seg p)) a >>= fun a => .ok (w, a)) := by
  have hr := val_ne hcur
  generalize hcv : val seg o = cur at *
  obtain ⟨w1, k1, k2, k3⟩ := collect_pixel (vis0 := vis) (o := o) (p := o) (pend := []) (R := []) (w := ⟨vis, [], []⟩) hcur hs hv hd hcv
    (fun q => Or.inr rfl) rfl (by simp) (by simp) (by simp) (by simp) (fun q h => absurd h (hfresh q))
    (fun p' hp' hne => by simp at hp'; exact absurd hp' hne) (fun q h => absurd h (hfresh q)) (by simp)
  rw [List.nil_append] at k2
  simp only [List.length_nil, Nat.add_zero] at k3
  have hfl : fresh vis cur ≤ vis.px.length := List.countP_le_length
  obtain ⟨w2, R, j1, j2⟩ := walkLoop_spec hcur hs (vis.px.length + 2) w1 [] k2 (by right; omega)
  have hloop : walkLoop seg cur (vis.px.length + 3) ⟨vis, [o], []⟩ = .ok w2 := by
    rw [walkLoop, if_neg (by simp)]
    simp only [List.foldlM_cons, List.foldlM_nil]
    rw [k1, Res.ok_bind]
    simp only [Res.pure_def, Res.ok_bind]
    exact j1
  obtain ⟨seen, b1, b2, b3, b4⟩ := walkLoop_facts hs hcur (vis.px.length + 3) ⟨vis, [o], []⟩ w2 hv hd (by simpa using hr) hloop
  simp only [List.mem_singleton, List.nil_append] at b2 b3
  have hinj : ∀ (a b : List (Nat × Nat)), (∀ p ∈ a, p.2 < seg.ny) → (∀ p ∈ b, p.2 < seg.ny) → a.map (flat seg) = b.map (flat seg) → a = b := by
    intro a
    induction a with
    | nil => intro b _ _ h; cases b with
      | nil => rfl
      | cons => simp at h
    | cons x a ih =>
      intro b ha hb h
      cases b with
      | nil => simp at h
      | cons y b =>
        simp only [List.map_cons, List.cons.injEq] at h
        have hx := flat_div (s := seg) (p := x) (ha x (by simp))
        have hy := flat_div (s := seg) (p := y) (hb y (by simp))
        rw [← hx, h.1, hy, ih b (fun p hp => ha p (by simp [hp])) (fun p hp => hb p (by simp [hp])) h.2]
  have hlab : ∀ q, val seg q = cur → q.1 < seg.nx ∧ q.2 < seg.ny := fun q hq => val_ne (by rw [hq]; exact hcur)
  have hoR : ∀ q ∈ o :: R, val seg q = cur := by
    intro q hq
    rcases List.mem_cons.1 hq with rfl | hq
    · exact hcv
    · exact j2.rseg q hq
  have hfil : (seen.filter fun q => decide (val seg q = cur)) = o :: R := by
    refine hinj _ _ (fun p hp => ?_) (fun p hp => (hlab p (hoR p hp)).2) ?_
    · rw [List.mem_filter, decide_eq_true_eq] at hp
      exact (hlab p hp.2).2
    · rw [← b3, j2.sids]
  have hRmem : ∀ q, val w2.vis q = cur → val seg q = cur → q ∈ R := by
    intro q h1 h2
    simpa using j2.all q h1 h2
  have hP : ∀ q, q ∈ o :: R ↔ Linked seg o q := by
    intro q
    unfold Linked
    rw [hcv]
    constructor
    · intro h
      rcases List.mem_cons.1 h with rfl | h
      · exact .refl
      · exact j2.reach q h
    · intro h
      induction h with
      | refl => simp
      | @tail b c _ hbc ih => exact List.mem_cons_of_mem _ (hRmem c (j2.nb b ih c hbc.1 (hlab c hbc.2)) hbc.2)
  refine ⟨w2, seen, R, j2.wv, j2.dv, j2.keep, j2.sids, hfil, by simpa using j2.nodup, hP, ?_, ?_, b4⟩
  · cases hR : R with
    | nil => exact Or.inl rfl
    | cons q t =>
      right
      rw [← hR]
      by_cases hqo : q = o
      · have hoR' : o ∈ R := by rw [hR, hqo]; simp
        obtain ⟨p, hp, hadj⟩ := j2.why o (j2.vis o (by simpa using hoR'))
        refine ⟨hoR', p, ?_, hadj.ne⟩
        rcases List.mem_cons.1 hp with h | h
        · exact absurd h hadj.ne
        · exact h
      · have hql : Linked seg o q := (hP q).1 (by rw [hR]; simp)
        rcases Relation.ReflTransGen.cases_head hql with e | ⟨c, hc, -⟩
        · exact absurd e.symm hqo
        · rw [hcv] at hc
          have hcin : c ∈ o :: R := by
            rw [hP]
            unfold Linked
            rw [hcv]
            exact .single hc
          exact ⟨hRmem o (j2.nb c hcin o hc.1.symm hr) hcv, q, by rw [hR]; simp, hqo⟩
  · intro q
    rw [b2]
    constructor
    · rintro (h | ⟨h, -⟩)
      · exact Or.inl h
      · obtain ⟨p, hp, hadj⟩ := j2.why q h
        have := val_ne (m := w2.vis) (p := q) (by rw [h]; exact hcur)
        rw [j2.dv.1, j2.dv.2] at this
        exact Or.inr ⟨this.1, this.2, p, (hP p).1 hp, hadj⟩
    · rintro (h | ⟨h1, h2, p, hp, hadj⟩)
      · exact Or.inl h
      · exact Or.inr ⟨j2.nb p ((hP p).2 hp) q hadj ⟨h1, h2⟩, hfresh q⟩

end Verif.Astro
