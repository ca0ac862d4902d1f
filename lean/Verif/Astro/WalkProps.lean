import Verif.Astro.SegProps
import Mathlib.Data.List.Perm.Subperm
/-!
# Property C89 (removal of small segments)
-/
namespace Verif.Astro
open Verif

/-! ### Counting pixels -/

/-- all positions of an image -/
def positions (s : Img Nat) : List (Nat × Nat) := (List.range (s.nx * s.ny)).map fun i => (i / s.ny, i % s.ny)

theorem mem_positions {s : Img Nat} {p : Nat × Nat} : p ∈ positions s ↔ p.1 < s.nx ∧ p.2 < s.ny := by
  unfold positions
  rw [List.mem_map]
  constructor
  · rintro ⟨i, hi, rfl⟩
    rw [List.mem_range] at hi
    have hp : 0 < s.ny := by
      rcases Nat.eq_zero_or_pos s.ny with h | h
      · rw [h] at hi; omega
      · exact h
    exact ⟨(Nat.div_lt_iff_lt_mul hp).2 hi, Nat.mod_lt _ hp⟩
  · rintro ⟨h1, h2⟩
    refine ⟨p.1 * s.ny + p.2, List.mem_range.2 (flat_lt h1 h2), ?_⟩
    have e1 : (p.1 * s.ny + p.2) / s.ny = p.1 := by
      rw [Nat.mul_comm, Nat.mul_add_div (by omega), Nat.div_eq_of_lt h2]; omega
    have e2 : (p.1 * s.ny + p.2) % s.ny = p.2 := by
      rw [Nat.mul_comm, Nat.mul_add_mod, Nat.mod_eq_of_lt h2]
    rw [e1, e2]

theorem flat_div {s : Img Nat} {p : Nat × Nat} (h : p.2 < s.ny) : (flat s p / s.ny, flat s p % s.ny) = p := by
  unfold flat
  have e1 : (p.1 * s.ny + p.2) / s.ny = p.1 := by
    rw [Nat.mul_comm, Nat.mul_add_div (by omega), Nat.div_eq_of_lt h]; omega
  have e2 : (p.1 * s.ny + p.2) % s.ny = p.2 := by
    rw [Nat.mul_comm, Nat.mul_add_mod, Nat.mod_eq_of_lt h]
  rw [e1, e2]

theorem nodup_positions (s : Img Nat) : (positions s).Nodup := by
  unfold positions
  refine List.Nodup.map_on ?_ List.nodup_range
  intro i _ j _ h
  rw [Prod.mk.injEq] at h
  rw [← Nat.div_add_mod i s.ny, ← Nat.div_add_mod j s.ny, h.1, h.2]

theorem px_positions {s : Img Nat} (hw : s.WF) : s.px = (positions s).map (val s) := by
  apply List.ext_getElem
  · rw [hw]; simp [positions]
  · intro i hi hi'
    have hl : i < s.nx * s.ny := by rw [← hw]; exact hi
    have hmem : (i / s.ny, i % s.ny) ∈ positions s := List.mem_map.2 ⟨i, List.mem_range.2 hl, rfl⟩
    have := px_val hw (mem_positions.1 hmem)
    have e : flat s (i / s.ny, i % s.ny) = i := by
      unfold flat; simp only; rw [Nat.mul_comm]; exact Nat.div_add_mod _ _
    rw [e, List.getElem?_eq_getElem hi, Option.some.injEq] at this
    rw [this]
    simp [positions]

/-- A list of distinct positions holding exactly those with value `j` has `npix` elements. -/
theorem npix_eq {s : Img Nat} (hw : s.WF) {j : Nat} (hj : j ≠ 0) {l : List (Nat × Nat)} (hn : l.Nodup)
    (h : ∀ p, p ∈ l ↔ val s p = j) : npix s j = l.length := by
  unfold npix
  rw [px_positions hw, List.countP_map, List.countP_eq_length_filter]
  refine List.Perm.length_eq ?_
  rw [List.perm_ext_iff_of_nodup ((nodup_positions s).filter _) hn]
  intro p
  rw [h, List.mem_filter, mem_positions]
  simp only [Function.comp_apply, decide_eq_true_eq]
  exact ⟨fun h => h.2, fun h => ⟨val_ne (by omega), h⟩⟩

/-! ### The walk -/

/-- pixels not yet visited -/
def fresh (vis : Img Nat) (cur : Nat) : Nat := vis.px.countP fun a => decide (a ≠ cur)

theorem walkAdd_fold (cur : Nat) (l : List (Nat × Nat)) (w : Walk) (hw : w.vis.WF) (hl : ∀ p ∈ l, p.1 < w.vis.nx ∧ p.2 < w.vis.ny)
    (hn : l.Nodup) :
    ∃ w', l.foldlM (walkAdd cur) w = .ok w' ∧ w'.vis.WF ∧ w'.vis.nx = w.vis.nx ∧ w'.vis.ny = w.vis.ny ∧ w'.sids = w.sids ∧
      w'.nxt = w.nxt ++ l.filter (fun p => decide (val w.vis p ≠ cur)) ∧
      (∀ q, val w'.vis q = if q ∈ l then cur else val w.vis q) ∧
      fresh w'.vis cur + w'.nxt.length = fresh w.vis cur + w.nxt.length := by
  induction l generalizing w with
  | nil => exact ⟨w, rfl, hw, rfl, rfl, rfl, by simp, by simp, rfl⟩
  | cons p l ih =>
    rw [List.foldlM_cons]
    unfold walkAdd
    rw [get_val hw (hl p (by simp)), Res.ok_bind]
    rw [List.nodup_cons] at hn
    by_cases h : val w.vis p ≠ cur
    · rw [if_pos h]
      obtain ⟨v, v1, v2, v3, v4, v5, v6⟩ := put_val hw (hl p (by simp)) cur
      rw [v1, Res.ok_bind, Res.ok_bind]
      obtain ⟨w', h1, h2, h3, h4, h5, h6, h7, h8⟩ := ih { w with vis := v, nxt := w.nxt ++ [p] } v2
        (fun q hq => by simp only [v3, v4]; exact hl q (by simp [hq])) hn.2
      simp only at h3 h4 h5 h6 h7 h8
      refine ⟨w', h1, h2, by omega, by omega, h5, ?_, ?_, ?_⟩
      · rw [h6, List.filter_cons_of_pos (by simpa using h), List.append_assoc, List.singleton_append]
        congr 2
        apply List.filter_congr
        intro q hq
        have hqp : q ≠ p := by rintro rfl; exact hn.1 hq
        rw [v5, if_neg hqp]
      · intro q
        rw [h7, v5]
        by_cases e : q = p
        · simp [e]
        · by_cases e2 : q ∈ l
          · simp [e2]
          · simp [e, e2]
      · have := v6 fun a => decide (a ≠ cur)
        simp only [ne_eq, not_true, decide_false, Bool.false_eq_true, if_false, Nat.add_zero] at this
        rw [if_pos (by simpa using h)] at this
        simp only [List.length_append, List.length_singleton] at h8
        unfold fresh at h8 ⊢
        simp only [ne_eq] at h8 ⊢
        omega
    · rw [if_neg h, Res.ok_bind]
      obtain ⟨w', h1, h2, h3, h4, h5, h6, h7, h8⟩ := ih w hw (fun q hq => hl q (by simp [hq])) hn.2
      refine ⟨w', h1, h2, h3, h4, h5, ?_, ?_, h8⟩
      · rw [h6, List.filter_cons_of_neg (by simpa using h)]
      · intro q
        rw [h7]
        by_cases e : q = p
        · subst e
          rw [if_neg hn.1]
          simp at h
          simp [h]
        · simp [e]

/-- invariant of the walk from `o`: `pend` are the positions still to be looked at, `R` those collected after `o` -/
structure WInv (seg : Img Nat) (cur : Nat) (vis0 : Img Nat) (o : Nat × Nat) (pend R : List (Nat × Nat)) (w : Walk) : Prop where
  wv : w.vis.WF
  dv : w.vis.nx = seg.nx ∧ w.vis.ny = seg.ny
  sids : w.sids = (o :: R).map (flat seg)
  nodup : (R ++ pend).Nodup
  rseg : ∀ q ∈ R, val seg q = cur
  vis : ∀ q ∈ R ++ pend, val w.vis q = cur
  all : ∀ q, val w.vis q = cur → val seg q = cur → q ∈ R ++ pend
  nb : ∀ p ∈ o :: R, ∀ q, Adj p q → q.1 < seg.nx ∧ q.2 < seg.ny → val w.vis q = cur
  why : ∀ q, val w.vis q = cur → ∃ p ∈ o :: R, Adj p q
  keep : ∀ q, val w.vis q = cur ∨ val w.vis q = val vis0 q
  reach : ∀ q ∈ R, Relation.ReflTransGen (fun a b => Adj a b ∧ val seg b = cur) o q

/-- collecting a pixel of the segment: `R` is the new list of pixels collected after the origin -/
theorem collect_pixel {seg vis0 : Img Nat} {cur : Nat} {o p : Nat × Nat} {pend R : List (Nat × Nat)} {w : Walk} (hcur : cur ≠ 0)
    (hs : seg.WF) (wv : w.vis.WF) (dv : w.vis.nx = seg.nx ∧ w.vis.ny = seg.ny) (hp : val seg p = cur)
    (keep : ∀ q, val w.vis q = cur ∨ val w.vis q = val vis0 q)
    (hsid : w.sids ++ [flat seg p] = (o :: R).map (flat seg)) (hpR : p ∈ o :: R)
    (nodup : (R ++ (pend ++ w.nxt)).Nodup) (rseg : ∀ q ∈ R, val seg q = cur) (vis : ∀ q ∈ R ++ (pend ++ w.nxt), val w.vis q = cur)
    (all : ∀ q, val w.vis q = cur → val seg q = cur → q ∈ R ++ (pend ++ w.nxt))
    (nb : ∀ p' ∈ o :: R, p' ≠ p → ∀ q, Adj p' q → q.1 < seg.nx ∧ q.2 < seg.ny → val w.vis q = cur)
    (why : ∀ q, val w.vis q = cur → ∃ p ∈ o :: R, Adj p q)
    (reach : ∀ q ∈ R, Relation.ReflTransGen (fun a b => Adj a b ∧ val seg b = cur) o q) :
    ∃ w', walkPoint seg cur w p = .ok w' ∧ WInv seg cur vis0 o (pend ++ w'.nxt) R w' ∧
      fresh w'.vis cur + w'.nxt.length = fresh w.vis cur + w.nxt.length := by
  have hr := val_ne (m := seg) (p := p) (by omega)
  have hN : ∀ q, q ∈ nbrs seg.nx seg.ny p.1 p.2 ↔ Adj p q ∧ q.1 < seg.nx ∧ q.2 < seg.ny := fun q => mem_nbrs hr
  obtain ⟨w', h1, h2, h3, h4, h5, h6, h7, h8⟩ := walkAdd_fold cur (nbrs seg.nx seg.ny p.1 p.2)
    { w with sids := w.sids ++ [p.1 * seg.ny + p.2] } wv (fun q hq => by
      have := ((hN q).1 hq).2
      simp only [dv.1, dv.2]; exact this) (nodup_nbrs _ _ _ _)
  simp only at h3 h4 h5 h6 h7 h8
  have hmono : ∀ q, val w.vis q = cur → val w'.vis q = cur := by
    intro q hq
    rw [h7]
    split
    · rfl
    · exact hq
  have hF : ∀ q, q ∈ pend ++ w'.nxt ↔ q ∈ pend ++ w.nxt ∨ (q ∈ nbrs seg.nx seg.ny p.1 p.2 ∧ val w.vis q ≠ cur) := by
    intro q
    rw [h6]
    simp only [List.mem_append, List.mem_filter, decide_eq_true_eq]
    tauto
  have hsub : ∀ q, q ∈ R ++ (pend ++ w.nxt) → q ∈ R ++ (pend ++ w'.nxt) := by
    intro q hq
    rw [List.mem_append, hF]
    rw [List.mem_append] at hq
    tauto
  refine ⟨w', ?_, ⟨h2, by omega, ?_, ?_, rseg, ?_, ?_, ?_, ?_, ?_, reach⟩, h8⟩
  · unfold walkPoint
    rw [get_val hs hr, Res.ok_bind, if_pos hp, h1]
  · rw [h5]; exact hsid
  · rw [h6, ← List.append_assoc pend, ← List.append_assoc R, List.nodup_append]
    refine ⟨nodup, (nodup_nbrs _ _ _ _).filter _, ?_⟩
    intro a ha b hb e
    subst e
    rw [List.mem_filter, decide_eq_true_eq] at hb
    exact hb.2 (vis a ha)
  · intro q hq
    rw [List.mem_append, hF] at hq
    rcases hq with hq | hq | ⟨hq, -⟩
    · exact hmono q (vis q (List.mem_append_left _ hq))
    · exact hmono q (vis q (List.mem_append_right _ hq))
    · rw [h7, if_pos hq]
  · intro q hq hsq
    rw [List.mem_append, hF]
    by_cases h : val w.vis q = cur
    · have := all q h hsq
      rw [List.mem_append] at this
      tauto
    · rw [h7] at hq
      split at hq
      · rename_i hm
        exact Or.inr (Or.inr ⟨hm, h⟩)
      · exact absurd hq h
  · intro p' hp' q hadj hqr
    by_cases e : p' = p
    · subst e
      rw [h7, if_pos ((hN q).2 ⟨hadj, hqr⟩)]
    · exact hmono q (nb p' hp' e q hadj hqr)
  · intro q hq
    rw [h7] at hq
    split at hq
    · rename_i hm
      exact ⟨p, hpR, ((hN q).1 hm).1⟩
    · exact why q hq
  · intro q
    rw [h7]
    split
    · exact Or.inl rfl
    · exact keep q

/-- one level of the walk -/
theorem walk_level {seg vis0 : Img Nat} {cur : Nat} {o : Nat × Nat} (hcur : cur ≠ 0) (hs : seg.WF)
    (l : List (Nat × Nat)) (R : List (Nat × Nat)) (w : Walk) (hl : ∀ p ∈ l, p.1 < seg.nx ∧ p.2 < seg.ny)
    (hi : WInv seg cur vis0 o (l ++ w.nxt) R w) :
    ∃ w' R', l.foldlM (walkPoint seg cur) w = .ok w' ∧ WInv seg cur vis0 o w'.nxt R' w' ∧
      fresh w'.vis cur + w'.nxt.length = fresh w.vis cur + w.nxt.length := by
  induction l generalizing R w with
  | nil => exact ⟨w, R, rfl, hi, rfl⟩
  | cons p l ih =>
    rw [List.foldlM_cons]
    have hmem : ∀ q, q ∈ (R ++ [p]) ++ (l ++ w.nxt) ↔ q ∈ R ++ (p :: l ++ w.nxt) := by intro q; simp
    by_cases h : val seg p = cur
    · have hsp : w.sids ++ [flat seg p] = (o :: (R ++ [p])).map (flat seg) := by
        rw [hi.sids]; simp
      obtain ⟨w1, k1, k2, k3⟩ := collect_pixel (vis0 := vis0) (o := o) (p := p) (pend := l) (R := R ++ [p]) (w := w) hcur hs hi.wv hi.dv h
        hi.keep hsp (by simp) (by have := hi.nodup; simpa using this)
        (fun q hq => by
          rw [List.mem_append, List.mem_singleton] at hq
          rcases hq with hq | rfl
          · exact hi.rseg q hq
          · exact h)
        (fun q hq => hi.vis q ((hmem q).1 hq)) (fun q h1 h2 => (hmem q).2 (hi.all q h1 h2))
        (fun p' hp' hne q => by
          refine hi.nb p' ?_ q
          simp only [List.mem_cons, List.mem_append, List.not_mem_nil, or_false] at hp' ⊢
          tauto)
        (fun q hq => by
          obtain ⟨p', h1, h2⟩ := hi.why q hq
          refine ⟨p', ?_, h2⟩
          simp only [List.mem_cons, List.mem_append, List.not_mem_nil, or_false] at h1 ⊢
          tauto)
        (fun q hq => by
          rw [List.mem_append, List.mem_singleton] at hq
          rcases hq with hq | rfl
          · exact hi.reach q hq
          · obtain ⟨p', h1, h2⟩ := hi.why q (hi.vis q (by simp))
            rcases List.mem_cons.1 h1 with rfl | h1
            · exact Relation.ReflTransGen.single ⟨h2, h⟩
            · exact (hi.reach p' h1).tail ⟨h2, h⟩)
      rw [k1, Res.ok_bind]
      obtain ⟨w2, R2, j1, j2, j3⟩ := ih (R ++ [p]) w1 (fun q hq => hl q (by simp [hq])) k2
      exact ⟨w2, R2, j1, j2, by omega⟩
    · have hpt : walkPoint seg cur w p = .ok w := by
        unfold walkPoint
        rw [get_val hs (hl p (by simp)), Res.ok_bind, if_neg h]
      rw [hpt, Res.ok_bind]
      refine ih R w (fun q hq => hl q (by simp [hq])) { hi with nodup := ?_, vis := ?_, all := ?_ }
      · have := hi.nodup
        rw [List.cons_append] at this
        exact (List.nodup_cons.1 (List.nodup_middle.1 this)).2
      · intro q hq
        refine hi.vis q ?_
        rw [List.mem_append] at hq ⊢
        rcases hq with hq | hq
        · exact Or.inl hq
        · exact Or.inr (by simp only [List.cons_append, List.mem_cons]; exact Or.inr hq)
      · intro q h1 h2
        have := hi.all q h1 h2
        rw [List.mem_append, List.cons_append, List.mem_cons] at this
        rw [List.mem_append]
        rcases this with h' | rfl | h'
        · exact Or.inl h'
        · exact absurd h2 h
        · exact Or.inr h'

theorem WInv.nxt_range {seg vis0 : Img Nat} {cur : Nat} {o : Nat × Nat} {pend R : List (Nat × Nat)} {w : Walk} (hcur : cur ≠ 0)
    (hi : WInv seg cur vis0 o pend R w) : ∀ p ∈ pend, p.1 < seg.nx ∧ p.2 < seg.ny := by
  intro p hp
  have := val_ne (m := w.vis) (p := p) (by rw [hi.vis p (List.mem_append_right _ hp)]; exact hcur)
  rw [hi.dv.1, hi.dv.2] at this
  exact this

theorem walkLoop_spec {seg vis0 : Img Nat} {cur : Nat} {o : Nat × Nat} (hcur : cur ≠ 0) (hs : seg.WF) :
    ∀ (n : Nat) (w : Walk) (R : List (Nat × Nat)), WInv seg cur vis0 o w.nxt R w → (w.nxt = [] ∧ 0 < n ∨ fresh w.vis cur + 1 < n) →
      ∃ w' R', walkLoop seg cur n w = .ok w' ∧ WInv seg cur vis0 o [] R' w' := by
  intro n
  induction n with
  | zero => intro w R _ h; omega
  | succ n ih =>
    intro w R hi hn
    unfold walkLoop
    by_cases h0 : w.nxt = []
    · rw [if_pos h0]
      exact ⟨w, R, rfl, by rw [← h0]; exact hi⟩
    · rw [if_neg h0]
      obtain ⟨w1, R1, k1, k2, k3⟩ := walk_level (seg := seg) (vis0 := vis0) (o := o) hcur hs w.nxt R { w with nxt := [] } (hi.nxt_range hcur)
        { hi with
          nodup := by rw [List.append_nil]; exact hi.nodup
          vis := by simp only [List.append_nil]; exact hi.vis
          all := by simp only [List.append_nil]; exact hi.all }
      rw [k1, Res.ok_bind]
      simp only [List.length_nil] at k3
      refine ih w1 R1 k2 ?_
      by_cases h1 : w1.nxt = []
      · left; exact ⟨h1, by rcases hn with hn | hn; exact absurd hn.1 h0; omega⟩
      · right
        have : 0 < w1.nxt.length := List.length_pos_iff.2 h1
        rcases hn with hn | hn
        · exact absurd hn.1 h0
        · omega

/-- The walk from `o` collects the pixels with its label; the origin is collected twice when there are others. -/
theorem walkSegment_spec {seg vis : Img Nat} {o : Nat × Nat} (hs : seg.WF) (hv : vis.WF) (hd : vis.nx = seg.nx ∧ vis.ny = seg.ny)
    (hcur : val seg o ≠ 0) (hfresh : ∀ q, val vis q ≠ val seg o)
    (hconn : ∀ q, val seg q = val seg o → Relation.ReflTransGen (fun a b => Adj a b ∧ val seg b = val seg o) o q) :
    ∃ (vis' : Img Nat) (P : List (Nat × Nat)), walkSegment seg vis (flat seg o) = .ok (vis', P.map (flat seg)) ∧ vis'.WF ∧ vis'.nx = seg.nx ∧ vis'.ny = seg.ny ∧
      (∀ q, val vis' q = val seg o ∨ val vis' q = val vis q) ∧
      (∀ q, q ∈ P ↔ val seg q = val seg o) ∧
      P.length = npix seg (val seg o) + if 2 ≤ npix seg (val seg o) then 1 else 0 := by
  have hr := val_ne hcur
  generalize hcv : val seg o = cur at *
  obtain ⟨w1, k1, k2, k3⟩ := collect_pixel (vis0 := vis) (o := o) (p := o) (pend := []) (R := []) (w := ⟨vis, [], []⟩) hcur hs hv hd hcv
    (fun q => Or.inr rfl) rfl (by simp) (by simp) (by simp) (by simp) (fun q h => absurd h (hfresh q))
    (fun p' hp' hne => by simp at hp'; exact absurd hp' hne) (fun q h => absurd h (hfresh q)) (by simp)
  rw [List.nil_append] at k2
  simp only [List.length_nil, Nat.add_zero] at k3
  have hfl : fresh vis cur ≤ vis.px.length := List.countP_le_length
  obtain ⟨w2, R, j1, j2⟩ := walkLoop_spec hcur hs (vis.px.length + 2) w1 [] k2 (by right; omega)
  refine ⟨w2.vis, o :: R, ?_, j2.wv, j2.dv.1, j2.dv.2, j2.keep, ?_⟩
  · unfold walkSegment
    have h1 : Res.rd seg.px (flat seg o) = .ok cur := by
      have := px_val hs hr
      rw [hcv] at this
      exact Res.rd_eq_ok.2 this
    rw [h1, Res.ok_bind, flat_div hr.2]
    rw [walkLoop, if_neg (by simp)]
    simp only [List.foldlM_cons, List.foldlM_nil]
    rw [k1, Res.ok_bind]
    simp only [Res.pure_def, Res.ok_bind]
    rw [j1, Res.ok_bind, j2.sids]
  · have hRmem : ∀ q, val w2.vis q = cur → val seg q = cur → q ∈ R := by
      intro q h1 h2
      simpa using j2.all q h1 h2
    have hin : ∀ q, val seg q = cur → q = o ∨ q ∈ R := by
      intro q hq
      have := hconn q hq
      induction this with
      | refl => exact Or.inl rfl
      | @tail b c _ hbc ih =>
        have hb : b = o ∨ b ∈ R := by
          by_cases h : val seg b = cur
          · exact ih h
          · rename_i hob
            rcases Relation.ReflTransGen.cases_tail hob with e | ⟨d, _, hd'⟩
            · exact Or.inl e
            · exact absurd hd'.2 h
        refine Or.inr (hRmem c (j2.nb b (by rcases hb with h | h <;> simp [h]) c hbc.1 ?_) hbc.2)
        exact val_ne (by omega)
    have hP : ∀ q, q ∈ o :: R ↔ val seg q = cur := by
      intro q
      rw [List.mem_cons]
      constructor
      · rintro (rfl | h)
        · exact hcv
        · exact j2.rseg q h
      · exact hin q
    refine ⟨hP, ?_⟩
    have hnd : R.Nodup := by simpa using j2.nodup
    by_cases hoR : o ∈ R
    · -- the origin has been reached again
      have hlen : npix seg cur = R.length := npix_eq hs hcur hnd fun p => by
        rw [← hP, List.mem_cons]
        constructor
        · exact Or.inr
        · rintro (rfl | h) <;> assumption
      have h2 : 2 ≤ npix seg cur := by
        obtain ⟨p, hp, hadj⟩ := j2.why o (j2.vis o (by simpa using hoR))
        have hpR : p ∈ R := by
          rcases List.mem_cons.1 hp with h | h
          · exact absurd h hadj.ne
          · exact h
        have hsub : [p, o].Subperm R := List.subperm_of_subset (show [p, o].Nodup by simp [hadj.ne]) (by
          intro a ha
          simp only [List.mem_cons, List.not_mem_nil, or_false] at ha
          rcases ha with rfl | rfl <;> assumption)
        rw [hlen]
        exact hsub.length_le
      rw [if_pos h2, hlen]; rfl
    · have hRnil : R = [] := by
        cases hR : R with
        | nil => rfl
        | cons q t =>
          exfalso
          apply hoR
          -- the first step from the origin
          have hq : val seg q = cur := j2.rseg q (by rw [hR]; simp)
          have hqo : q ≠ o := by rintro rfl; apply hoR; rw [hR]; simp
          rcases Relation.ReflTransGen.cases_head (hconn q hq) with e | ⟨c, hc, -⟩
          · exact absurd e.symm hqo
          · have hcin : c ∈ o :: R := (hP c).2 hc.2
            exact hRmem o (j2.nb c hcin o hc.1.symm hr) hcv
      subst hRnil
      have hlen : npix seg cur = [o].length := npix_eq hs hcur (List.nodup_singleton o) fun p => by rw [← hP]
      rw [hlen]; rfl

theorem eraseIds_spec (P : List (Nat × Nat)) (s : Img Nat) (hw : s.WF) (hP : ∀ p ∈ P, p.1 < s.nx ∧ p.2 < s.ny) :
    ∃ s', eraseIds s (P.map (flat s)) = .ok s' ∧ s'.WF ∧ s'.nx = s.nx ∧ s'.ny = s.ny ∧
      ∀ q, val s' q = if q ∈ P then 0 else val s q := by
  unfold eraseIds
  induction P generalizing s with
  | nil => exact ⟨s, rfl, hw, rfl, rfl, by simp⟩
  | cons p P ih =>
    have hr := hP p (by simp)
    have hl : flat s p < s.px.length := by rw [hw]; exact flat_lt hr.1 hr.2
    obtain ⟨w, w1, w2, w3, w4, w5, -⟩ := put_val hw hr 0
    have hwe : w = { s with px := s.px.set (flat s p) 0 } := by
      unfold Img.put at w1
      rw [if_pos (show p.1 * s.ny + p.2 < s.px.length from hl), Res.ok.injEq] at w1
      exact w1.symm
    rw [List.map_cons, List.foldlM_cons, if_pos hl, Res.ok_bind, ← hwe]
    have hfl : P.map (flat s) = P.map (flat w) := by
      apply List.map_congr_left
      intro q _
      simp only [flat, w4]
    rw [hfl]
    obtain ⟨s', h1, h2, h3, h4, h5⟩ := ih w w2 fun q hq => by rw [w3, w4]; exact hP q (by simp [hq])
    refine ⟨s', h1, h2, by omega, by omega, ?_⟩
    intro q
    rw [h5, w5]
    by_cases e : q = p
    · simp [e]
    · by_cases e2 : q ∈ P
      · simp [e2]
      · simp [e, e2]

/-- the number of entries that the removal compares with the minimal area, for a segment of `n` pixels -/
def counted (n : Nat) : Nat := n + if 2 ≤ n then 1 else 0

/-- pixels with equal predicates are as many -/
theorem npix_congr {s t : Img Nat} (hs : s.WF) (ht : t.WF) (hx : s.nx = t.nx) (hy : s.ny = t.ny) {j : Nat}
    (h : ∀ p, val s p = j ↔ val t p = j) : npix s j = npix t j := by
  unfold npix
  have hp : positions s = positions t := by unfold positions; rw [hx, hy]
  rw [px_positions hs, px_positions ht, List.countP_map, List.countP_map, hp]
  congr 1
  funext p
  simp only [Function.comp_apply]
  exact decide_eq_decide.2 (h p)

/-- C89: what `min_area` does. If no entry has a smaller area nothing changes. Otherwise the segments for which the number of
pixels, plus one when there are two or more, is below `min_area` are erased from the map and from the output. -/
theorem C89_erase (m : Img Nat) (first k : Nat) (hw : m.WF) (hf : 0 < first) :
    ∃ smap out smap' out', segment m first 0 = .ok (smap, out) ∧ segment m first k = .ok (smap', out') ∧
      ((∀ o ∈ out, k ≤ o.area) → smap' = smap ∧ out' = out) ∧
      ((∃ o ∈ out, o.area < k) → smap'.WF ∧ smap'.nx = smap.nx ∧ smap'.ny = smap.ny ∧
        (∀ p, val smap' p = if val smap p ≠ 0 ∧ counted (npix smap (val smap p)) < k then 0 else val smap p) ∧
        out' = out.filter fun o => decide (k ≤ counted (npix smap o.id))) := by
  obtain ⟨s, h1, h2⟩ := scan_spec m first hw hf
  have hseg : segment m first k = eraseSmall s.smap s.out k := by unfold segment; rw [h1, Res.ok_bind]
  by_cases hany : ∃ o ∈ s.out, o.area < k
  swap
  · refine ⟨s.smap, s.out, s.smap, s.out, by rw [segment_zero]; exact h1, ?_, fun _ => ⟨rfl, rfl⟩, fun h => absurd h hany⟩
    rw [hseg]; unfold eraseSmall
    rw [if_neg]
    simpa using hany
  have hdist : ∀ o ∈ s.out, 0 < o.id := fun o ho => (h2.ok o ho).1
  have hnd : (s.out.map SegOut.id).Nodup := by rw [h2.ids]; exact List.nodup_range'
  -- the loop over the entries
  have loop : ∀ (rest done : List SegOut) (st : Img Nat × Img Nat × List SegOut), done ++ rest = s.out →
      st.1.WF → st.1.nx = s.smap.nx → st.1.ny = s.smap.ny → st.2.1.WF → st.2.1.nx = s.smap.nx → st.2.1.ny = s.smap.ny →
      (∀ p, val st.1 p = if val s.smap p ∈ done.map SegOut.id ∧ counted (npix s.smap (val s.smap p)) < k then 0 else val s.smap p) →
      (∀ p, val st.2.1 p = 0 ∨ val st.2.1 p ∈ done.map SegOut.id) →
      st.2.2 = done.filter (fun o => decide (k ≤ counted (npix s.smap o.id))) →
      ∃ r : Img Nat × Img Nat × List SegOut, rest.foldlM (fun (s : Img Nat × Img Nat × List SegOut) o => do
        let (vis, sids) ← walkSegment s.1 s.2.1 o.origin
        if sids.length < k then do
          let smap ← eraseIds s.1 sids
          .ok (smap, vis, s.2.2)
        else .ok (s.1, vis, s.2.2 ++ [o])) st = .ok r ∧ r.1.WF ∧ r.1.nx = s.smap.nx ∧ r.1.ny = s.smap.ny ∧
        (∀ p, val r.1 p = if val s.smap p ∈ s.out.map SegOut.id ∧ counted (npix s.smap (val s.smap p)) < k then 0 else val s.smap p) ∧
        r.2.2 = s.out.filter (fun o => decide (k ≤ counted (npix s.smap o.id))) := by
    intro rest
    induction rest with
    | nil =>
      intro done st hd a1 a2 a3 _ _ _ a7 _ a9
      rw [List.append_nil] at hd
      subst hd
      exact ⟨st, rfl, a1, a2, a3, a7, a9⟩
    | cons o rest ih =>
      intro done st hd a1 a2 a3 a4 a5 a6 a7 a8 a9
      have ho : o ∈ s.out := by rw [← hd]; simp
      obtain ⟨b1, ⟨p, b2, b3⟩, -, -⟩ := h2.ok o ho
      have hnotin : o.id ∉ done.map SegOut.id := by
        rw [← hd, List.map_append, List.map_cons] at hnd
        have := (List.nodup_append.1 hnd).2.2
        intro hm
        exact this _ hm _ (List.mem_cons_self ..) rfl
      have hsame : ∀ q, val st.1 q = o.id ↔ val s.smap q = o.id := by
        intro q
        rw [a7]
        split
        · rename_i hc
          constructor
          · omega
          · intro h; rw [h] at hc; exact absurd hc.1 hnotin
        · exact Iff.rfl
      have hvp : val st.1 p = o.id := (hsame p).2 b2
      have hflat : flat st.1 p = o.origin := by rw [← b3]; simp only [flat, a3]
      have hnp : npix st.1 o.id = npix s.smap o.id := npix_congr a1 h2.ws a2 a3 hsame
      obtain ⟨vis', P, w1, w2, w3, w4, w5, w6, w7⟩ := walkSegment_spec (seg := st.1) (vis := st.2.1) (o := p) a1 a4 (by omega)
        (by omega) (fun q hq => by
          rw [hvp] at hq
          rcases a8 q with h | h
          · omega
          · rw [hq] at h; exact hnotin h)
        (fun q hq => by
          rw [hvp] at hq ⊢
          have hc := h2.con p q (by omega) (by rw [b2, (hsame q).1 hq])
          have : ∀ q, Conn m p q → Relation.ReflTransGen (fun a b => Adj a b ∧ val st.1 b = o.id) p q := by
            intro q hq
            obtain ⟨hp0, hpath⟩ := hq
            induction hpath with
            | refl => exact .refl
            | @tail b c hb hbc ih' =>
              refine ih'.tail ⟨hbc.1, ?_⟩
              rw [hsame, ← b2]
              exact h2.old.conn (by omega) ⟨hp0, hb.tail hbc⟩
          exact this q hc)
      rw [hflat] at w1
      rw [hvp] at w5 w6 w7
      rw [List.foldlM_cons, w1, Res.ok_bind]
      simp only [List.length_map]
      rw [hnp] at w7
      have hcP : P.length = counted (npix s.smap o.id) := w7
      have hmapd : ∀ j, j ∈ (done ++ [o]).map SegOut.id ↔ j ∈ done.map SegOut.id ∨ j = o.id := by
        intro j; simp
      have hvis' : ∀ q, val vis' q = 0 ∨ val vis' q ∈ (done ++ [o]).map SegOut.id := by
        intro q
        rw [hmapd]
        rcases w5 q with h | h
        · exact Or.inr (Or.inr h)
        · rcases a8 q with h' | h'
          · exact Or.inl (by omega)
          · rw [h]; exact Or.inr (Or.inl h')
      by_cases hsmall : counted (npix s.smap o.id) < k
      · rw [if_pos (by omega)]
        obtain ⟨sm', e1, e2, e3, e4, e5⟩ := eraseIds_spec P st.1 a1 (fun q hq => val_ne (by rw [(w6 q).1 hq]; omega))
        rw [e1, Res.ok_bind]
        refine ih (done ++ [o]) (sm', vis', st.2.2) (by simpa using hd) e2 (by simp only; omega) (by simp only; omega) w2
          (by simp only; omega) (by simp only; omega) ?_ hvis' ?_
        · intro q
          simp only
          rw [e5]
          simp only [hmapd]
          by_cases hq : val s.smap q = o.id
          · rw [if_pos ((w6 q).2 ((hsame q).2 hq)), hq, if_pos ⟨Or.inr rfl, hsmall⟩]
          · rw [if_neg (fun h => hq ((hsame q).1 ((w6 q).1 h))), a7]
            simp only [hq, or_false]
        · simp only
          rw [a9, List.filter_append, List.filter_cons_of_neg (by simpa using hsmall)]
          simp
      · rw [if_neg (by omega)]
        refine ih (done ++ [o]) (st.1, vis', st.2.2 ++ [o]) (by simpa using hd) a1 a2 a3 w2
          (by simp only; omega) (by simp only; omega) ?_ hvis' ?_
        · intro q
          simp only
          rw [a7]
          simp only [hmapd]
          by_cases hq : val s.smap q = o.id
          · rw [hq, if_neg (fun h => hsmall h.2), if_neg (fun h => hsmall h.2)]
          · simp only [hq, or_false]
        · simp only
          rw [a9, List.filter_append, List.filter_cons_of_pos (by simpa using hsmall)]
          simp
  obtain ⟨r, r1, r2, r3, r4, r5, r6⟩ := loop s.out [] (s.smap, Img.fill s.smap.nx s.smap.ny 0, []) rfl h2.ws rfl rfl (fill_wf _ _ _) rfl rfl
    (fun p => by simp) (fun p => Or.inl (val_fill _ _ p)) rfl
  refine ⟨s.smap, s.out, r.1, r.2.2, by rw [segment_zero]; exact h1, ?_, fun h => ?_, fun _ => ⟨r2, r3, r4, ?_, r6⟩⟩
  · rw [hseg]; unfold eraseSmall
    rw [if_pos (by simpa using hany), r1, Res.ok_bind]
  · obtain ⟨o, ho, hlt⟩ := hany
    have := h o ho
    omega
  · intro p
    rw [r5]
    have : val s.smap p ∈ s.out.map SegOut.id ↔ val s.smap p ≠ 0 := by
      constructor
      · intro h
        obtain ⟨o, ho, he⟩ := List.mem_map.1 h
        have := hdist o ho
        omega
      · intro h
        obtain ⟨o, ho, he⟩ := h2.has p h
        exact List.mem_map.2 ⟨o, ho, he.symm⟩
    simp only [this]

/-- C89, what holds of the claim: a segment of at least `min_area` pixels is never erased. -/
theorem C89_kept_partial (m : Img Nat) (first k : Nat) (hw : m.WF) (hf : 0 < first) (smap smap' : Img Nat) (out out' : List SegOut)
    (h : segment m first 0 = .ok (smap, out)) (h' : segment m first k = .ok (smap', out')) :
    (∀ p, k ≤ npix smap (val smap p) → val smap' p = val smap p) ∧ (∀ o ∈ out, k ≤ npix smap o.id → o ∈ out') ∧
      (∀ p, val smap' p = val smap p ∨ val smap' p = 0) := by
  obtain ⟨a, b, c, d, h1, h2, h3, h4⟩ := C89_erase m first k hw hf
  rw [h1, Res.ok.injEq, Prod.mk.injEq] at h
  rw [h2, Res.ok.injEq, Prod.mk.injEq] at h'
  obtain ⟨rfl, rfl⟩ := h
  obtain ⟨rfl, rfl⟩ := h'
  by_cases hany : ∃ o ∈ b, o.area < k
  · obtain ⟨-, -, -, h5, h6⟩ := h4 hany
    have hc : ∀ n, k ≤ n → ¬ counted n < k := by intro n hn; unfold counted; split <;> omega
    refine ⟨fun p hp => ?_, fun o ho hk => ?_, fun p => ?_⟩
    · rw [h5, if_neg fun h => hc _ hp h.2]
    · rw [h6, List.mem_filter]
      exact ⟨ho, by simpa using Nat.not_lt.1 (hc _ hk)⟩
    · rw [h5]
      split
      · exact Or.inr rfl
      · exact Or.inl rfl
  · obtain ⟨rfl, rfl⟩ := h3 fun o ho => by by_contra hc; exact hany ⟨o, ho, by omega⟩
    exact ⟨fun _ _ => rfl, fun o ho _ => ho, fun _ => Or.inl rfl⟩

/-- C89 is false as stated: with `min_area = 3` a segment of two pixels is kept, although its area 2 is reported as such. -/
theorem C89_refuted : segment ⟨1, 2, [1, 1]⟩ 1 3 = .ok (⟨1, 2, [1, 1]⟩, [⟨1, 2, 1, 0, 0⟩]) ∧ npix ⟨1, 2, [1, 1]⟩ 1 = 2 := by decide

/-- C89 is false as stated: a square of four pixels is kept with `min_area = 5`. -/
theorem C89_area_refuted : segment ⟨2, 2, [1, 1, 1, 1]⟩ 1 5 = .ok (⟨2, 2, [1, 1, 1, 1]⟩, [⟨1, 5, 2, 3, 0⟩]) := by decide

example : segment ⟨1, 5, [1, 0, 1, 1, 1]⟩ 1 3 = .ok (⟨1, 5, [0, 0, 2, 2, 2]⟩, [⟨2, 3, 9, 0, 2⟩]) := by decide

end Verif.Astro
