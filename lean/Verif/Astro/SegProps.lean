import Verif.Astro.SegLemmas
/-!
# Property C65 (segmentation into connected components)
-/
namespace Verif.Astro
open Verif

/-- number of pixels with a value -/
def npix (s : Img Nat) (j : Nat) : Nat := s.px.countP fun a => decide (a = j)

/-- Spec of an entry of the output: its origin is the first pixel with its id, in row-major order, and its area is not
smaller than the number of pixels. -/
def OutOk (s : Img Nat) (o : SegOut) : Prop :=
  0 < o.id ∧ (∃ p, val s p = o.id ∧ flat s p = o.origin) ∧ (∀ q, val s q = o.id → o.origin ≤ flat s q) ∧ npix s o.id ≤ o.area

/-- invariant of the scan -/
structure SInv (m : Img Nat) (first y x : Nat) (s : Scan) : Prop where
  wm : s.map.WF
  ws : s.smap.WF
  dm : s.map.nx = m.nx ∧ s.map.ny = m.ny
  ds : s.smap.nx = m.nx ∧ s.smap.ny = m.ny
  mv : ∀ p, val s.map p = if val s.smap p = 0 then val m p else 0
  idv : s.id = first + s.out.length
  old : Old m s.smap s.id
  con : ∀ p q, val s.smap p ≠ 0 → val s.smap p = val s.smap q → Conn m p q
  nz : ∀ p, val s.smap p ≠ 0 → val m p ≠ 0
  bef : ∀ p : Nat × Nat, Before y x p.1 p.2 → val m p ≠ 0 → val s.smap p ≠ 0
  ids : s.out.map SegOut.id = List.range' first s.out.length
  ok : ∀ o ∈ s.out, OutOk s.smap o
  has : ∀ p, val s.smap p ≠ 0 → ∃ o ∈ s.out, val s.smap p = o.id

theorem before_flat {m : Img Nat} {y x : Nat} {q : Nat × Nat} (hx : x < m.ny) (hq : q.2 < m.ny) (h : ¬ Before y x q.1 q.2) :
    y * m.ny + x ≤ flat m q := by
  unfold Before at h
  unfold flat
  rcases Nat.lt_trichotomy q.1 y with h1 | h1 | h1
  · omega
  · have : x ≤ q.2 := by omega
    rw [h1]; omega
  · have : (y + 1) * m.ny ≤ q.1 * m.ny := Nat.mul_le_mul_right _ h1
    rw [Nat.add_mul] at this
    omega

theorem scan_step {m : Img Nat} {first y x : Nat} {s : Scan} (hy : y < m.nx) (hx : x < m.ny)
    (hi : SInv m first y x s) : ∃ s', scanBody y x s = .ok s' ∧ SInv m first y (x + 1) s' := by
  have hbef : ∀ s' : Scan, (∀ p : Nat × Nat, Before y x p.1 p.2 → val m p ≠ 0 → val s'.smap p ≠ 0) →
      (val m (y, x) ≠ 0 → val s'.smap (y, x) ≠ 0) → ∀ p : Nat × Nat, Before y (x + 1) p.1 p.2 → val m p ≠ 0 → val s'.smap p ≠ 0 := by
    intro s' h1 h2 p hp
    by_cases e : p = (y, x)
    · subst e; exact h2
    · refine h1 p ?_
      have : ¬ (p.1 = y ∧ p.2 = x) := fun h => e (Prod.ext h.1 h.2)
      unfold Before at hp ⊢
      omega
  have hr : (y, x).1 < s.map.nx ∧ (y, x).2 < s.map.ny := by simp only [hi.dm]; exact ⟨hy, hx⟩
  have hg := get_val hi.wm hr
  unfold scanBody
  simp only at hg
  rw [hg, Res.ok_bind]
  by_cases h0 : val s.map (y, x) = 0
  · rw [if_pos h0]
    refine ⟨s, rfl, { hi with bef := hbef s hi.bef ?_ }⟩
    intro hm hz
    rw [hi.mv, if_pos hz] at h0
    exact hm h0
  · rw [if_neg h0]
    have hs0 : val s.smap (y, x) = 0 ∧ val m (y, x) ≠ 0 := by
      rw [hi.mv] at h0
      split at h0
      · exact ⟨by assumption, h0⟩
      · exact absurd rfl h0
    have hlt := hi.old.lt
    have hpos := hi.old.pos
    have hf0 : FInv m s.smap s.id (y, x) { (⟨s.map, s.smap, [], 1, x, y⟩ : Fill) with st := [(y, x)] } := by
      refine ⟨hi.wm, hi.ws, hi.dm, hi.ds, hi.mv, fun p => Or.inl rfl, ?_, ?_, ?_, fun _ _ _ => rfl, ?_⟩
      · intro p hp
        simp only at hp
        have := hlt p; omega
      · intro p hp
        rw [List.mem_singleton] at hp
        subst hp
        exact ⟨.refl hs0.2, Or.inl hs0.1⟩
      · intro p q hp
        simp only at hp
        have := hlt p; omega
      · simp only [List.length_singleton]
        have : List.countP (fun a => decide (a = s.id)) s.smap.px = 0 := by
          rw [List.countP_eq_zero]
          intro a ha
          rw [decide_eq_true_eq]
          rintro rfl
          obtain ⟨i, hi', hie⟩ := List.getElem_of_mem ha
          have hnpos : 0 < s.smap.ny := by
            rcases Nat.eq_zero_or_pos s.smap.ny with h | h
            · have := hi.ws; rw [Img.WF, h, Nat.mul_zero] at this; omega
            · exact h
          have hir : i / s.smap.ny < s.smap.nx := by
            rw [Nat.div_lt_iff_lt_mul hnpos]
            have := hi.ws; rw [Img.WF] at this; omega
          have := px_val hi.ws (p := (i / s.smap.ny, i % s.smap.ny)) ⟨hir, Nat.mod_lt _ hnpos⟩
          have e : flat s.smap (i / s.smap.ny, i % s.smap.ny) = i := by
            unfold flat; simp only; rw [Nat.mul_comm]; exact Nat.div_add_mod _ _
          rw [e, List.getElem?_eq_getElem hi', Option.some.injEq, hie] at this
          have := hlt (i / s.smap.ny, i % s.smap.ny)
          omega
        omega
    obtain ⟨f, f1, f2, f3, f4, -⟩ := process_spec (p := (y, x)) (s := ⟨s.map, s.smap, [], 1, x, y⟩) hi.old hf0
    simp only at f1
    rw [f1, Res.ok_bind]
    have hfuel : meas f < 10 * s.map.px.length + 10 := by
      refine lt_of_lt_of_le f3 ?_
      have : todo s.map ≤ s.map.px.length := List.countP_le_length
      simp only [meas, List.length_singleton]
      split <;> omega
    obtain ⟨g, g1, g2, g3, g4⟩ := fillLoop_spec hi.old _ f f2 hfuel
    rw [g1, Res.ok_bind]
    -- labels of the new map
    have hnew : ∀ p, val g.smap p ≠ s.id → val g.smap p = val s.smap p := by
      intro p hp
      rcases g2.lab p with h | h
      · exact h
      · exact absurd h.2 hp
    have hold : ∀ p, val s.smap p ≠ 0 → val g.smap p = val s.smap p := by
      intro p hp
      rcases g2.lab p with h | h
      · exact h
      · exact absurd h.1 hp
    have hny : g.smap.ny = s.smap.ny := by rw [g2.ds.2, hi.ds.2]
    have horig : val g.smap (y, x) = s.id := g4 _ f4
    refine ⟨_, rfl, g2.wm, g2.ws, g2.dm, g2.ds, g2.mv, ?_, ⟨?_, ?_, ?_⟩, ?_, ?_, ?_, ?_, ?_, ?_⟩
    · simp only [List.length_append, List.length_singleton]; have := hi.idv; omega
    · simp only; omega
    · intro p
      simp only
      by_cases h : val g.smap p = s.id
      · omega
      · rw [hnew p h]; have := hlt p; omega
    · intro p q hp hadj hq
      simp only at hp ⊢
      by_cases h : val g.smap p = s.id
      · rcases g2.fro p q h hadj hq with h' | h'
        · omega
        · rw [g3] at h'; simp at h'
      · rw [hnew p h] at hp ⊢
        have := hi.old.full p q hp hadj hq
        rw [hold q (by omega), this]
    · intro p q hp hpq
      simp only at hp hpq
      by_cases h : val g.smap p = s.id
      · exact (g2.con p h).symm.trans (g2.con q (by omega))
      · rw [hnew p h] at hp hpq
        refine hi.con p q hp ?_
        rw [hpq, hnew q]
        intro h'
        have := hlt p; omega
    · intro p hp
      simp only at hp
      by_cases h : val g.smap p = s.id
      · exact (g2.con p h).right
      · rw [hnew p h] at hp; exact hi.nz p hp
    · refine hbef ⟨g.map, g.smap, _, _⟩ ?_ ?_
      · intro p hp hm
        have := hi.bef p hp hm
        simp only
        rw [hold p this]; exact this
      · intro _
        simp only
        omega
    · simp only [List.map_append, List.map_singleton, List.length_append, List.length_singleton, hi.ids, hi.idv]
      rw [List.range'_concat, Nat.one_mul]
    · intro o ho
      simp only at ho
      rw [List.mem_append, List.mem_singleton] at ho
      rcases ho with ho | rfl
      · obtain ⟨k1, ⟨p, k2, k3⟩, k4, k5⟩ := hi.ok o ho
        have hoid : o.id < s.id := by rw [← k2]; exact hlt p
        refine ⟨k1, ⟨p, ?_, ?_⟩, ?_, ?_⟩
        · simp only; rw [hold p (by omega), k2]
        · simp only [flat, hny]; exact k3
        · intro q hq
          simp only at hq ⊢
          rw [hnew q (by omega)] at hq
          have := k4 q hq
          simpa only [flat, hny] using this
        · refine le_trans (le_of_eq ?_) k5
          exact g2.cnt o.id (by omega) (by omega)
      · refine ⟨hpos, ⟨(y, x), horig, ?_⟩, ?_, ?_⟩
        · simp only [flat, g2.ds.2, hi.dm.2]
        · intro q hq
          simp only at hq
          have hqr := val_ne (m := g.smap) (p := q) (by omega)
          have hb : ¬ Before y x q.1 q.2 := by
            intro hb
            have h1 := hi.bef q hb (g2.con q hq).right
            have h2 := hold q h1
            have := hlt q
            omega
          have := before_flat (m := g.smap) (y := y) (x := x) (by rw [g2.ds.2]; exact hx) hqr.2 hb
          simp only [hi.dm.2]
          rw [g2.ds.2] at this
          exact this
        · have := g2.area
          rw [g3] at this
          exact this
    · intro p hp
      simp only at hp ⊢
      by_cases h : val g.smap p = s.id
      · exact ⟨_, List.mem_append_right _ (List.mem_singleton.2 rfl), h⟩
      · rw [hnew p h] at hp
        obtain ⟨o, h1, h2⟩ := hi.has p hp
        exact ⟨o, List.mem_append_left _ h1, by rw [hnew p h, h2]⟩

theorem val_fill (nx ny : Nat) (p : Nat × Nat) : val (Img.fill nx ny 0) p = 0 := by
  unfold val
  rw [fill_at]
  split <;> rfl

theorem scan_spec (m : Img Nat) (first : Nat) (hw : m.WF) (hf : 0 < first) :
    ∃ s, segmentScan m first = .ok (s.smap, s.out) ∧ SInv m first m.nx 0 s := by
  unfold segmentScan
  rw [Res.check_pos hf, Res.ok_bind]
  obtain ⟨s, h1, h2⟩ := for2_rule (nx := m.nx) (ny := m.ny) (body := scanBody) (fun y x s => SInv m first y x s)
    ⟨m, Img.fill m.nx m.ny 0, [], first⟩
    { wm := hw, ws := fill_wf _ _ _, dm := ⟨rfl, rfl⟩, ds := ⟨rfl, rfl⟩
      mv := fun p => by simp only [val_fill, if_true]
      idv := rfl
      old := ⟨hf, fun p => by simp only [val_fill]; exact hf, fun p q h => absurd (val_fill _ _ p) h⟩
      con := fun p q h => absurd (val_fill _ _ p) h
      nz := fun p h => absurd (val_fill _ _ p) h
      bef := fun p h => by unfold Before at h; omega
      ids := rfl
      ok := fun o h => by simp at h
      has := fun p h => absurd (val_fill _ _ p) h }
    (fun y x s hy hx hs => scan_step hy hx hs)
    (fun y s hy hs => { hs with
      bef := fun p hp hm => hs.bef p (by
        have := val_ne hm
        unfold Before at hp ⊢
        omega) hm })
  exact ⟨s, by rw [h1, Res.ok_bind], h2⟩

theorem Old.conn {m sm : Img Nat} {id : Nat} (ho : Old m sm id) {p q : Nat × Nat} (hp : val sm p ≠ 0) (h : Conn m p q) :
    val sm q = val sm p := by
  obtain ⟨_, h2⟩ := h
  induction h2 with
  | refl => rfl
  | tail _ h ih =>
    rw [ho.full _ _ (by omega) h.1 h.2, ih]

theorem segment_zero (m : Img Nat) (first : Nat) : segment m first 0 = segmentScan m first := by
  unfold segment eraseSmall
  have : ∀ r : Res (Img Nat × List SegOut), (r >>= fun x => Res.ok x) = r := by
    intro r; cases r <;> rfl
  simpa using this (segmentScan m first)

/-- C65: `segment` always returns; zero pixels are labelled 0, non-zero pixels are labelled alike exactly when they are
connected by steps to side-sharing non-zero pixels, the labels are the consecutive ids listed in the output, in the
order of the first pixel of the components, and `origin` is that first pixel. -/
theorem C65_segment (m : Img Nat) (first : Nat) (hw : m.WF) (hf : 0 < first) :
    ∃ smap out, segment m first 0 = .ok (smap, out) ∧ smap.WF ∧ smap.nx = m.nx ∧ smap.ny = m.ny ∧
      (∀ p, val smap p = 0 ↔ val m p = 0) ∧
      (∀ p q, val m p ≠ 0 → (val smap p = val smap q ↔ Conn m p q)) ∧
      out.map SegOut.id = List.range' first out.length ∧
      (∀ p, val m p ≠ 0 → ∃ o ∈ out, val smap p = o.id) ∧
      (∀ o ∈ out, (∃ p, val smap p = o.id ∧ flat smap p = o.origin) ∧ ∀ q, val smap q = o.id → o.origin ≤ flat smap q) := by
  obtain ⟨s, h1, h2⟩ := scan_spec m first hw hf
  have hz : ∀ p, val s.smap p = 0 ↔ val m p = 0 := by
    intro p
    constructor
    · intro h
      by_contra hm
      refine h2.bef p ?_ hm h
      have := val_ne hm
      unfold Before; omega
    · intro h
      by_contra hm
      exact h2.nz p hm h
  refine ⟨s.smap, s.out, by rw [segment_zero]; exact h1, h2.ws, h2.ds.1, h2.ds.2, hz, ?_, h2.ids, ?_, ?_⟩
  · intro p q hp
    have hp' : val s.smap p ≠ 0 := fun h => hp ((hz p).1 h)
    exact ⟨fun h => h2.con p q hp' h, fun h => (h2.old.conn hp' h).symm⟩
  · intro p hp
    exact h2.has p fun h => hp ((hz p).1 h)
  · intro o ho
    exact ⟨(h2.ok o ho).2.1, (h2.ok o ho).2.2.1⟩

/-- C65: a first id of 0 is refused. -/
theorem C65_first (m : Img Nat) (k : Nat) : segment m 0 k = .abort := by
  unfold segment segmentScan
  rw [Res.check_neg (by omega)]; rfl

/-- C65, areas: the area reported is never smaller than the number of pixels of the segment. -/
theorem C65_area_partial (m : Img Nat) (first : Nat) (hw : m.WF) (hf : 0 < first) (smap : Img Nat) (out : List SegOut)
    (h : segment m first 0 = .ok (smap, out)) : ∀ o ∈ out, npix smap o.id ≤ o.area := by
  obtain ⟨s, h1, h2⟩ := scan_spec m first hw hf
  rw [segment_zero, h1, Res.ok.injEq, Prod.mk.injEq] at h
  intro o ho
  rw [← h.1]
  rw [← h.2] at ho
  exact (h2.ok o ho).2.2.2

/-- C65 is false for the areas: a square of four pixels is given the area 5 (pixels reached from two neighbours are counted
twice). -/
theorem C65_area_refuted : segment ⟨2, 2, [1, 1, 1, 1]⟩ 1 0 = .ok (⟨2, 2, [1, 1, 1, 1]⟩, [⟨1, 5, 2, 3, 0⟩]) := by decide

example : segment ⟨3, 3, [1, 0, 1, 1, 0, 0, 0, 0, 5]⟩ 1 0 =
    .ok (⟨3, 3, [1, 0, 2, 1, 0, 0, 0, 0, 3]⟩, [⟨1, 2, 0, 1, 0⟩, ⟨2, 1, 2, 0, 2⟩, ⟨3, 1, 2, 2, 8⟩]) := by decide

end Verif.Astro
