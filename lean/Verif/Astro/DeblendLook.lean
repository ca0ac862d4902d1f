import Verif.Astro.DeblendWalk
/-!
# The search of a segment around a pixel
-/
namespace Verif.Astro
open Verif

/-- Spec: number of steps between two positions -/
def mdist (p q : Nat × Nat) : Nat := (p.1 - q.1) + (q.1 - p.1) + ((p.2 - q.2) + (q.2 - p.2))

theorem mdist_self (p : Nat × Nat) : mdist p p = 0 := by unfold mdist; omega
theorem mdist_comm (p q : Nat × Nat) : mdist p q = mdist q p := by unfold mdist; omega
theorem mdist_eq_zero {p q : Nat × Nat} (h : mdist p q = 0) : p = q := by
  unfold mdist at h
  exact Prod.ext (by omega) (by omega)

theorem mdist_adj {o p q : Nat × Nat} (h : Adj p q) : mdist o q = mdist o p + 1 ∨ mdist o q + 1 = mdist o p := by
  unfold Adj at h; unfold mdist; omega

/-- a step towards `o`, inside of the image -/
theorem mdist_step {o q : Nat × Nat} {nx ny k : Nat} (ho : o.1 < nx ∧ o.2 < ny) (hq : q.1 < nx ∧ q.2 < ny) (h : mdist o q = k + 1) :
    ∃ p : Nat × Nat, (p.1 < nx ∧ p.2 < ny) ∧ mdist o p = k ∧ Adj p q := by
  obtain ⟨a, b⟩ := o
  obtain ⟨c, d⟩ := q
  simp only [mdist] at h ho hq
  by_cases h1 : a < c
  · exact ⟨(c - 1, d), by simp only; omega, by simp only [mdist]; omega, Or.inr ⟨rfl, Or.inl (by simp only; omega)⟩⟩
  by_cases h2 : c < a
  · exact ⟨(c + 1, d), by simp only; omega, by simp only [mdist]; omega, Or.inr ⟨rfl, Or.inr rfl⟩⟩
  by_cases h3 : b < d
  · exact ⟨(c, d - 1), by simp only; omega, by simp only [mdist]; omega, Or.inl ⟨rfl, Or.inl (by simp only; omega)⟩⟩
  · exact ⟨(c, d + 1), by simp only; omega, by simp only [mdist]; omega, Or.inl ⟨rfl, Or.inr rfl⟩⟩

/-- if there is no pixel at some distance, there is none further -/
theorem mdist_none {o : Nat × Nat} {nx ny k : Nat} (ho : o.1 < nx ∧ o.2 < ny) (h : ∀ q : Nat × Nat, q.1 < nx ∧ q.2 < ny → mdist o q ≠ k) :
    ∀ (n : Nat) (q : Nat × Nat), q.1 < nx ∧ q.2 < ny → mdist o q ≠ k + n
  | 0, q, hq => h q hq
  | n + 1, q, hq => fun he => by
    obtain ⟨p, h1, h2, -⟩ := mdist_step ho hq (k := k + n) (by omega)
    exact mdist_none ho h n p h1 h2

/-- squared distance of a pixel to the peak of its segment -/
def peakDist (seg : Img Nat) (origin : List Nat) (first : Nat) (p : Nat × Nat) : Nat :=
  sqd p (origin.getD (val seg p - first) 0 / seg.ny, origin.getD (val seg p - first) 0 % seg.ny)

/-- Spec: `q` is the pixel of `l` with a label that is closest to the peak of its segment -/
structure Best (seg : Img Nat) (origin : List Nat) (first : Nat) (l : List (Nat × Nat)) (q : Nat × Nat) : Prop where
  mem : q ∈ l
  lab : val seg q ≠ 0
  min : ∀ q' ∈ l, val seg q' ≠ 0 → peakDist seg origin first q ≤ peakDist seg origin first q'

/-- state after the positions `l1` of a level -/
structure LInv (seg : Img Nat) (origin : List Nat) (first cur : Nat) (s0 : Walk) (l1 : List (Nat × Nat)) (s : Look) : Prop where
  wv : s.w.vis.WF
  dv : s.w.vis.nx = seg.nx ∧ s.w.vis.ny = seg.ny
  keep : ∀ q, val s.w.vis q = cur ∨ val s.w.vis q = val s0.vis q
  mono : ∀ q, val s0.vis q = cur → val s.w.vis q = cur
  no : (∀ q ∈ l1, val seg q = 0) → s.neib = 0 ∧ s.closest = none ∧
    (∀ q, val s.w.vis q = cur ↔ val s0.vis q = cur ∨ (q.1 < seg.nx ∧ q.2 < seg.ny ∧ ∃ p ∈ l1, Adj p q)) ∧
    ∀ q, q ∈ s.w.nxt ↔ val s.w.vis q = cur ∧ val s0.vis q ≠ cur
  yes : (∃ q ∈ l1, val seg q ≠ 0) → ∃ q, Best seg origin first l1 q ∧ s.neib = val seg q ∧ s.closest = some (peakDist seg origin first q)

theorem look_level {seg : Img Nat} {origin : List Nat} {first cur : Nat} {s0 : Walk} (hs : seg.WF) (hcur : cur ≠ 0)
    (hor : ∀ q, val seg q ≠ 0 → val seg q - first < origin.length) : ∀ (l l1 : List (Nat × Nat)) (s : Look),
    (∀ p ∈ l, p.1 < seg.nx ∧ p.2 < seg.ny) → LInv seg origin first cur s0 l1 s →
    ∃ s', l.foldlM (lookPoint seg origin first cur) s = .ok s' ∧ LInv seg origin first cur s0 (l1 ++ l) s'
  | [], l1, s, _, h => ⟨s, rfl, by rw [List.append_nil]; exact h⟩
  | p :: l, l1, s, hl, h => by
    have hp := hl p (by simp)
    suffices hstep : ∃ s', lookPoint seg origin first cur s p = .ok s' ∧ LInv seg origin first cur s0 (l1 ++ [p]) s' by
      obtain ⟨s1, e1, h1⟩ := hstep
      obtain ⟨s2, e2, h2⟩ := look_level hs hcur hor l (l1 ++ [p]) s1 (fun q hq => hl q (by simp [hq])) h1
      refine ⟨s2, ?_, by rwa [List.append_assoc] at h2⟩
      rw [List.foldlM_cons, e1, Res.ok_bind, e2]
    by_cases ht : val seg p = 0
    · -- no label here
      by_cases hn : ∀ q ∈ l1, val seg q = 0
      · obtain ⟨n1, n2, n3, n4⟩ := h.no hn
        obtain ⟨x, h1, h2, h3, h4, h5, h6, h7, -⟩ := walkAdd_fold cur (nbrs seg.nx seg.ny p.1 p.2) s.w h.wv
          (fun q hq => by rw [h.dv.1, h.dv.2]; exact ((mem_nbrs hp).1 hq).2) (nodup_nbrs _ _ _ _)
        refine ⟨{ s with w := x }, ?_, ?_⟩
        · unfold lookPoint
          rw [get_val hs hp, Res.ok_bind, ht, if_neg (by omega), Res.ok_bind]
          simp only
          rw [if_pos n1, h1, Res.ok_bind]
        · have hvis : ∀ q, val x.vis q = cur ↔ val s.w.vis q = cur ∨ (q.1 < seg.nx ∧ q.2 < seg.ny ∧ Adj p q) := by
            intro q
            rw [h7]
            by_cases hm : q ∈ nbrs seg.nx seg.ny p.1 p.2
            · rw [if_pos hm]
              have := (mem_nbrs hp).1 hm
              tauto
            · rw [if_neg hm]
              have : ¬ (Adj p q ∧ q.1 < seg.nx ∧ q.2 < seg.ny) := fun h' => hm ((mem_nbrs hp).2 h')
              tauto
          refine ⟨h2, ⟨by rw [h3]; exact h.dv.1, by rw [h4]; exact h.dv.2⟩, ?_, fun q hq => (hvis q).2 (Or.inl (h.mono q hq)), ?_, ?_⟩
          · intro q
            show val x.vis q = _ ∨ val x.vis q = _
            rw [h7]
            split
            · exact Or.inl rfl
            · exact h.keep q
          · intro _
            refine ⟨n1, n2, fun q => ?_, fun q => ?_⟩
            · rw [hvis, n3]
              constructor
              · rintro ((h' | ⟨a, b, p', c, d⟩) | ⟨a, b, c⟩)
                · exact Or.inl h'
                · exact Or.inr ⟨a, b, p', List.mem_append_left _ c, d⟩
                · exact Or.inr ⟨a, b, p, by simp, c⟩
              · rintro (h' | ⟨a, b, p', c, d⟩)
                · exact Or.inl (Or.inl h')
                · rw [List.mem_append, List.mem_singleton] at c
                  rcases c with c | rfl
                  · exact Or.inl (Or.inr ⟨a, b, p', c, d⟩)
                  · exact Or.inr ⟨a, b, d⟩
            · show q ∈ x.nxt ↔ _
              rw [h6, List.mem_append, n4, List.mem_filter, decide_eq_true_eq, mem_nbrs hp, hvis]
              have := h.mono q
              tauto
          · rintro ⟨q, hq, hne⟩
            rw [List.mem_append, List.mem_singleton] at hq
            rcases hq with hq | rfl
            · exact absurd (hn q hq) hne
            · exact absurd ht hne
      · have hex : ∃ q ∈ l1, val seg q ≠ 0 := by push Not at hn; exact hn
        obtain ⟨q, hb, e1, e2⟩ := h.yes hex
        have hne : s.neib ≠ 0 := by rw [e1]; exact hb.lab
        refine ⟨s, ?_, ⟨h.wv, h.dv, h.keep, h.mono, ?_, ?_⟩⟩
        · unfold lookPoint
          rw [get_val hs hp, Res.ok_bind, ht, if_neg (by omega), Res.ok_bind]
          simp only
          rw [if_neg hne]
        · intro hh
          obtain ⟨q', h1, h2⟩ := hex
          exact absurd (hh q' (List.mem_append_left _ h1)) h2
        · intro _
          refine ⟨q, ⟨List.mem_append_left _ hb.mem, hb.lab, ?_⟩, e1, e2⟩
          intro q' hq' hl'
          rw [List.mem_append, List.mem_singleton] at hq'
          rcases hq' with h' | rfl
          · exact hb.min q' h' hl'
          · exact absurd ht hl'
    · -- a label
      have hrd : Res.rd origin (val seg p - first) = .ok (origin.getD (val seg p - first) 0) := by
        rw [Res.rd_lt (hor p ht), List.getD_eq_getElem?_getD, List.getElem?_eq_getElem (hor p ht), Option.getD_some]
      have hpt : lookPoint seg origin first cur s p = .ok (if farther s.closest (peakDist seg origin first p) then
          { s with neib := val seg p, closest := some (peakDist seg origin first p) } else s) := by
        unfold lookPoint
        rw [get_val hs hp, Res.ok_bind, if_pos (by omega), hrd, Res.ok_bind, Res.ok_bind]
        simp only
        have hif : (if farther s.closest (peakDist seg origin first p) then
          ({ s with neib := val seg p, closest := some (peakDist seg origin first p) } : Look) else s).neib ≠ 0 := by
          by_cases hf : farther s.closest (peakDist seg origin first p) = true
          · rw [if_pos hf]; exact ht
          · rw [if_neg hf]
            by_cases hn : ∀ q ∈ l1, val seg q = 0
            · rw [(h.no hn).2.1] at hf
              exact absurd rfl hf
            · push Not at hn
              obtain ⟨q, hb, e1, -⟩ := h.yes hn
              rw [e1]; exact hb.lab
        unfold peakDist at hif ⊢
        rw [if_neg hif]
      refine ⟨_, hpt, ?_⟩
      have hw : ∀ b : Bool, (if b then ({ s with neib := val seg p, closest := some (peakDist seg origin first p) } : Look) else s).w = s.w := by
        intro b; cases b <;> rfl
      refine ⟨by rw [hw]; exact h.wv, by rw [hw]; exact h.dv, by rw [hw]; exact h.keep, by rw [hw]; exact h.mono, ?_, ?_⟩
      · intro hh
        exact absurd (hh p (by simp)) ht
      · intro _
        by_cases hn : ∀ q ∈ l1, val seg q = 0
        · rw [(h.no hn).2.1]
          refine ⟨p, ⟨by simp, ht, ?_⟩, rfl, rfl⟩
          intro q' hq' hl'
          rw [List.mem_append, List.mem_singleton] at hq'
          rcases hq' with h' | rfl
          · exact absurd (hn q' h') hl'
          · exact Nat.le_refl _
        · push Not at hn
          obtain ⟨q, hb, e1, e2⟩ := h.yes hn
          by_cases hf : farther s.closest (peakDist seg origin first p) = true
          · rw [if_pos hf]
            rw [e2] at hf
            simp only [farther, decide_eq_true_eq] at hf
            refine ⟨p, ⟨by simp, ht, ?_⟩, rfl, rfl⟩
            intro q' hq' hl'
            rw [List.mem_append, List.mem_singleton] at hq'
            rcases hq' with h' | rfl
            · exact Nat.le_trans (Nat.le_of_lt hf) (hb.min q' h' hl')
            · exact Nat.le_refl _
          · rw [if_neg hf]
            rw [e2] at hf
            simp only [farther, decide_eq_true_eq, Nat.not_lt] at hf
            refine ⟨q, ⟨List.mem_append_left _ hb.mem, hb.lab, ?_⟩, e1, e2⟩
            intro q' hq' hl'
            rw [List.mem_append, List.mem_singleton] at hq'
            rcases hq' with h' | rfl
            · exact hb.min q' h' hl'
            · exact hf

/-- Spec: the segment found around `o`: one at the smallest distance, below `reach` -/
structure Found (seg : Img Nat) (origin : List Nat) (first reach : Nat) (o : Nat × Nat) (q : Nat × Nat) : Prop where
  rng : q.1 < seg.nx ∧ q.2 < seg.ny
  near : mdist o q < reach
  lab : val seg q ≠ 0
  first_ : ∀ q', val seg q' ≠ 0 → mdist o q ≤ mdist o q'
  best : ∀ q', val seg q' ≠ 0 → mdist o q' = mdist o q → peakDist seg origin first q ≤ peakDist seg origin first q'

theorem lookLoop_spec {seg : Img Nat} {origin : List Nat} {first cur : Nat} {vis0 : Img Nat} {o : Nat × Nat} (hs : seg.WF) (hcur : cur ≠ 0)
    (ho : o.1 < seg.nx ∧ o.2 < seg.ny) (hor : ∀ q, val seg q ≠ 0 → val seg q - first < origin.length) : ∀ (n k : Nat) (s : Look),
    s.w.vis.WF → (s.w.vis.nx = seg.nx ∧ s.w.vis.ny = seg.ny) → (∀ q, val s.w.vis q = cur ∨ val s.w.vis q = val vis0 q) → s.neib = 0 → s.closest = none →
    (∀ q, val s.w.vis q = cur ↔ (q.1 < seg.nx ∧ q.2 < seg.ny) ∧ mdist o q ≤ k) → (∀ q, q ∈ s.w.nxt ↔ (q.1 < seg.nx ∧ q.2 < seg.ny) ∧ mdist o q = k) →
    (∀ q, mdist o q < k → val seg q = 0) →
    ∃ s', lookLoop seg origin first cur n s = .ok s' ∧ s'.w.vis.WF ∧ (s'.w.vis.nx = seg.nx ∧ s'.w.vis.ny = seg.ny) ∧
      (∀ q, val s'.w.vis q = cur ∨ val s'.w.vis q = val vis0 q) ∧
      (s'.neib = 0 → ∀ q, mdist o q < k + n → val seg q = 0) ∧
      (s'.neib ≠ 0 → ∃ q, Found seg origin first (k + n) o q ∧ s'.neib = val seg q)
  | 0, k, s, wv, dv, keep, hn, hc, hvis, hnxt, hz => by
    exact ⟨s, rfl, wv, dv, keep, fun _ => hz, fun h => absurd hn h⟩
  | n + 1, k, s, wv, dv, keep, hn, hc, hvis, hnxt, hz => by
    unfold lookLoop
    by_cases h0 : s.w.nxt = []
    · rw [if_pos (Or.inl h0)]
      refine ⟨s, rfl, wv, dv, keep, fun _ q hq => ?_, fun h => absurd hn h⟩
      by_cases hk : mdist o q < k
      · exact hz q hk
      · by_contra hne
        have hqr := val_ne hne
        exact mdist_none (k := k) ho (fun q' hq' he => by
          have := (hnxt q').2 ⟨hq', he⟩
          rw [h0] at this; cases this) (mdist o q - k) q hqr (by omega)
    · rw [if_neg (by rintro (h | h); exact h0 h; exact h hn)]
      obtain ⟨s1, e1, h1⟩ := look_level (s0 := { s.w with nxt := [] }) hs hcur hor s.w.nxt [] { s with w := { s.w with nxt := [] } } (fun p hp => ((hnxt p).1 hp).1)
        ⟨wv, dv, fun q => Or.inr rfl, fun q hq => hq, fun _ => ⟨hn, hc, fun q => by simp, fun q => by simp⟩, fun h => by simp at h⟩
      rw [e1, Res.ok_bind, ]
      rw [List.nil_append] at h1
      have keep1 : ∀ q, val s1.w.vis q = cur ∨ val s1.w.vis q = val vis0 q := by
        intro q
        rcases h1.keep q with h | h
        · exact Or.inl h
        · rw [h]; exact keep q
      by_cases hall : ∀ q ∈ s.w.nxt, val seg q = 0
      · obtain ⟨n1, n2, n3, n4⟩ := h1.no hall
        have hz' : ∀ q, mdist o q < k + 1 → val seg q = 0 := by
          intro q hq
          by_cases hk : mdist o q < k
          · exact hz q hk
          · by_contra hne
            exact hne (hall q ((hnxt q).2 ⟨val_ne hne, by omega⟩))
        have hvis' : ∀ q, val s1.w.vis q = cur ↔ (q.1 < seg.nx ∧ q.2 < seg.ny) ∧ mdist o q ≤ k + 1 := by
          intro q
          rw [n3]
          simp only
          rw [hvis]
          constructor
          · rintro (⟨a, b⟩ | ⟨a, b, p, c, d⟩)
            · exact ⟨a, by omega⟩
            · have := ((hnxt p).1 c).2
              rcases mdist_adj (o := o) d with e | e
              · exact ⟨⟨a, b⟩, by omega⟩
              · exact ⟨⟨a, b⟩, by omega⟩
          · rintro ⟨a, b⟩
            by_cases hk : mdist o q ≤ k
            · exact Or.inl ⟨a, hk⟩
            · obtain ⟨p, h1, h2, h3⟩ := mdist_step ho a (k := k) (by omega)
              exact Or.inr ⟨a.1, a.2, p, (hnxt p).2 ⟨h1, h2⟩, h3⟩
        have hnxt' : ∀ q, q ∈ s1.w.nxt ↔ (q.1 < seg.nx ∧ q.2 < seg.ny) ∧ mdist o q = k + 1 := by
          intro q
          rw [n4, hvis']
          simp only
          rw [ne_eq, hvis]
          constructor
          · rintro ⟨⟨a, b⟩, c⟩
            exact ⟨a, by by_contra hne; exact c ⟨a, by omega⟩⟩
          · rintro ⟨a, b⟩
            exact ⟨⟨a, by omega⟩, fun h => by omega⟩
        obtain ⟨s2, g1, g2, g3, g4, g5, g6⟩ := lookLoop_spec hs hcur ho hor n (k + 1) s1 h1.wv h1.dv keep1 n1 n2 hvis' hnxt' hz'
        rw [show k + 1 + n = k + (n + 1) by omega] at g5 g6
        exact ⟨s2, g1, g2, g3, g4, g5, g6⟩
      · push Not at hall
        obtain ⟨q, hb, b1, b2⟩ := h1.yes hall
        have hne : s1.neib ≠ 0 := by rw [b1]; exact hb.lab
        have hlast : lookLoop seg origin first cur n s1 = .ok s1 := by
          cases n with
          | zero => rfl
          | succ n => unfold lookLoop; rw [if_pos (Or.inr hne)]
        have hqk := (hnxt q).1 hb.mem
        refine ⟨s1, hlast, h1.wv, h1.dv, keep1, fun h => absurd h hne, fun _ => ⟨q, ⟨hqk.1, by omega, hb.lab, ?_, ?_⟩, b1⟩⟩
        · intro q' hq'
          by_contra hlt
          exact hq' (hz q' (by omega))
        · intro q' hq' he
          exact hb.min q' ((hnxt q').2 ⟨val_ne hq', by omega⟩) hq'

/-- the search around `o`: the closest segment within `reach` steps -/
theorem look_spec {seg vis : Img Nat} {origin : List Nat} {first cur reach : Nat} {o : Nat × Nat} (hs : seg.WF) (hv : vis.WF)
    (hd : vis.nx = seg.nx ∧ vis.ny = seg.ny) (hcur : cur ≠ 0) (ho : o.1 < seg.nx ∧ o.2 < seg.ny)
    (hor : ∀ q, val seg q ≠ 0 → val seg q - first < origin.length) (hfresh : ∀ q, val vis q = cur ↔ q = o) :
    ∃ s, lookLoop seg origin first cur reach ⟨⟨vis, [o], []⟩, 0, none⟩ = .ok s ∧ s.w.vis.WF ∧ (s.w.vis.nx = seg.nx ∧ s.w.vis.ny = seg.ny) ∧
      (∀ q, val s.w.vis q = cur ∨ val s.w.vis q = val vis q) ∧
      (s.neib = 0 → ∀ q, mdist o q < reach → val seg q = 0) ∧
      (s.neib ≠ 0 → ∃ q, Found seg origin first reach o q ∧ s.neib = val seg q) := by
  have h := lookLoop_spec (vis0 := vis) (first := first) (cur := cur) hs hcur ho hor reach 0 ⟨⟨vis, [o], []⟩, 0, none⟩ hv hd (fun q => Or.inr rfl) rfl rfl
    (fun q => by
      show val vis q = cur ↔ _
      rw [hfresh]
      constructor
      · rintro rfl; exact ⟨ho, by rw [mdist_self]⟩
      · rintro ⟨_, h⟩; exact (mdist_eq_zero (by omega)).symm)
    (fun q => by
      show q ∈ [o] ↔ _
      rw [List.mem_singleton]
      constructor
      · rintro rfl; exact ⟨ho, mdist_self _⟩
      · rintro ⟨_, h⟩; exact (mdist_eq_zero h).symm)
    (fun q h => by omega)
  rwa [Nat.zero_add] at h

end Verif.Astro
