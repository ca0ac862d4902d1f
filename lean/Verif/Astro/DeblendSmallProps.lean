import Verif.Astro.DeblendSmall
/-!
# C138: small segments of `segment_deblend`

`seg0`, `out0` are what is obtained without minimum area.
-/
namespace Verif.Astro
open Verif Verif.Find

variable {K : Type} [Field K] [LinearOrder K]

omit [Field K] [LinearOrder K] in
theorem dropIds_eq {β : Type} {l : List β} {n : Nat} (hl : l.length = n) (small : Nat → Bool) (z : β) :
    dropIds l ((List.range n).filter small) = ((List.range n).filter fun j => !small j).map fun j => l.getD j z := by
  have hz : l.zipIdx = (List.range n).map fun i => (l.getD i z, i) := by
    apply List.ext_getElem
    · simp [hl]
    · intro i h1 h2
      have hi : i < l.length := by simpa using h1
      simp [List.getD_eq_getElem?_getD, List.getElem?_eq_getElem hi]
  unfold dropIds
  rw [hz, List.filter_map, List.map_map]
  have : (List.range n).filter ((fun x : β × Nat => decide (x.2 ∉ (List.range n).filter small)) ∘ fun i => (l.getD i z, i)) = (List.range n).filter fun j => !small j := by
    apply List.filter_congr
    intro j hj
    have := List.mem_range.1 hj
    simp [this]
  rw [this]
  rfl

theorem filter_all {n : Nat} {small : Nat → Bool} (h : ∀ j, j < n → small j = false) : ((List.range n).filter fun j => !small j) = List.range n := by
  rw [List.filter_eq_self]
  intro j hj
  rw [h j (List.mem_range.1 hj)]; rfl

theorem map_getD_range {β : Type} {l : List β} {n : Nat} (hl : l.length = n) (z : β) : (List.range n).map (fun j => l.getD j z) = l := by
  apply List.ext_getElem
  · simp [hl]
  · intro i h1 h2
    simp [List.getD_eq_getElem?_getD, List.getElem?_eq_getElem h2]

/-- the pixels of segment `j` -/
def segPixels (seg : Img Nat) (v : Nat) : List (Nat × Nat) := (positions seg).filter fun q => decide (val seg q = v)

/-- the third part, whether there are small segments or not -/
theorem deblend_small {img : Img (Option K)} {P : DebParams K} {seg0 : Img Nat} {out0 : DebOut K} (hw : img.WF) (hf : 0 < P.first) (hne : img.px ≠ [])
    (h0 : segmentDeblend img {} (withArea P 0) = .ok (seg0, out0)) :
    ∃ y eids, Start img P out0.origin seg0 out0.area (fun j => segPixels seg0 (P.first + j)) ∧
      TInv img P out0.origin seg0 out0.area (fun j => segPixels seg0 (P.first + j)) out0.origin.length (y, eids) ∧
      segmentDeblend img {} P = .ok (y.seg, ⟨dropIds out0.id eids, dropIds y.area eids, List.zipWith divO (dropIds y.by_ eids) (dropIds y.fc eids),
        List.zipWith divO (dropIds y.bx eids) (dropIds y.fc eids), dropIds out0.py eids, dropIds out0.px eids, dropIds out0.origin eids, dropIds y.flux eids⟩) ∧
      out0.id.length = out0.origin.length ∧ out0.py.length = out0.origin.length ∧ out0.px.length = out0.origin.length ∧
      out0.id = (List.range out0.origin.length).map (P.first + ·) := by
  obtain ⟨top, e, d, x, hd, hi, hall, hres⟩ := deblend_core (P := P) hw hf hne
  have := h0.symm.trans ((hres 0).trans (area_pos (P := withArea P 0) ⟨hd.segw, hd.segd, hd.visw, hd.visd, hd.ids, hd.id, hd.py, hd.px, hd.lab, hd.own, hd.vis, hd.done, hd.bright, hd.peak,
    hd.apart, hd.local_, hd.rule⟩ ⟨hi.segw, hi.segd, hi.visw, hi.visd, hi.vis, hi.yes, hi.no, hi.len, hi.meas, hi.rest⟩ (Nat.zero_le _)))
  rw [Res.ok.injEq, Prod.mk.injEq] at this
  obtain ⟨rfl, rfl⟩ := this
  simp only
  have hids : d.ids = (List.range d.origin.length).map (P.first + ·) := by have := hd.ids; simpa using this
  have horig : ∀ j, j < d.origin.length → d.origin[j]? = some (d.origin.getD j 0) := by
    intro j hj
    rw [List.getD_eq_getElem?_getD, List.getElem?_eq_getElem hj]; rfl
  have hlabx : ∀ q, val x.seg q ≠ 0 → val d.seg q ≠ 0 ∧ ∃ j, j < d.origin.length ∧ val x.seg q = P.first + j := by
    intro q hq
    by_cases hkq : Kept img P.first d.seg d.origin q ∧ val d.seg q < P.first + d.origin.length
    · rw [hi.yes q hkq.1 hkq.2]
      have := hd.lab q hkq.1.1
      exact ⟨hkq.1.1, val d.seg q - P.first, this.2, by omega⟩
    · exact absurd (hi.no q hkq) hq
  have hlink : ∀ j q, j < d.origin.length → (val x.seg q = P.first + j ↔ Linked x.seg (peakOf img d.origin j) q) := by
    intro j q hj
    have hk := kept_linked hd hf hi (horig j hj)
    constructor
    · intro h; exact (hk q).2 ((hk q).1.1 h)
    · intro h
      rw [h.val]
      exact (hk _).1.2 .refl
  have hmem : ∀ v, 0 < v → ∀ q, q ∈ segPixels x.seg v ↔ val x.seg q = v := by
    intro v hv q
    unfold segPixels
    rw [List.mem_filter, decide_eq_true_eq]
    constructor
    · exact fun h => h.2
    · intro h
      have := val_ne (show val x.seg q ≠ 0 by omega)
      exact ⟨mem_positions.2 this, h⟩
  have hnd : ∀ v, (segPixels x.seg v).Nodup := fun v => (nodup_positions _).filter _
  have hperm : ∀ j, j < d.origin.length → ∃ area flux by_ bx fc, x.area[j]? = some area ∧ x.flux[j]? = some flux ∧ x.by_[j]? = some by_ ∧ x.bx[j]? = some bx ∧ x.fc[j]? = some fc ∧
      Measured img P.flim (peakOf img d.origin j) (twice (peakOf img d.origin j) (segPixels x.seg (P.first + j))) area flux by_ bx fc := by
    intro j hj
    obtain ⟨m', R, area, flux, by_, bx, fc, h1, h2, h3, h4, h5, h6, h7, h8, h9, h10⟩ := (hi.meas j hj).ex
    have hm' : pos img m' = peakOf img d.origin j := by
      unfold peakOf; rw [List.getD_eq_getElem?_getD, h1]; rfl
    have hp := twice_perm h2 h4 (hnd (P.first + j)) (fun q => by rw [hmem _ (by omega), h3]; exact (kept_linked hd hf hi h1 q).1)
    rw [hm'] at h10 hp
    exact ⟨area, flux, by_, bx, fc, h5, h6, h7, h8, h9, h10.perm hp⟩
  have hstart : Start img P d.origin x.seg x.area (fun j => segPixels x.seg (P.first + j)) := by
    refine ⟨hi.segd, hi.len.1, fun q hq => (hlabx q hq).2, fun j hj => ?_, hlink, fun q hq => ?_, fun j => hnd _, fun j q => hmem _ (by omega) q, fun j hj => ?_⟩
    · exact ⟨(hd.own j _ (horig j hj)).1, (hlink j _ hj).2 .refl⟩
    · obtain ⟨a, ha, -⟩ := hd.bright q (hlabx q hq).1
      rw [lumK, ha]; rfl
    · obtain ⟨area, flux, by_, bx, fc, h1, h2, h3, h4, h5, h6⟩ := hperm j hj
      rw [h1, h6.area]
  have hinit : ∀ v : Img Nat, v.WF → v.nx = img.nx ∧ v.ny = img.ny → (∀ q, val v q < P.first) →
      TInv img P d.origin x.seg x.area (fun j => segPixels x.seg (P.first + j)) 0 ({ x with vis := v }, []) := by
    intro v v1 v2 v3
    refine ⟨hi.segw, hi.segd, v1, v2, fun q => by have := v3 q; simpa using this, hi.len, fun q hq => hq, fun q j hv _ => hv, fun q j _ _ hj => by omega, fun j hj => by omega, fun b hb => ?_, rfl⟩
    obtain ⟨area, flux, by_, bx, fc, h1, h2, h3, h4, h5, h6⟩ := hperm b hb
    exact ⟨area, flux, by_, bx, fc, h1, h2, h3, h4, h5, by simpa [merged] using h6⟩
  have hlens : d.ids.length = d.origin.length ∧ d.py.length = d.origin.length ∧ d.px.length = d.origin.length := by
    rw [hids, hd.py, hd.px]; simp
  have hres' := hres P.minArea
  rw [show withArea P P.minArea = P from rfl] at hres'
  unfold debFinish at hres'
  by_cases hany : x.area.any (fun a => decide (a < P.minArea)) = true
  · rw [if_pos hany] at hres'
    obtain ⟨y, y1, y2⟩ := foldlM_range (n := d.origin.length) (f := smallSegment img P d.ids d.origin)
      (TInv img P d.origin x.seg x.area (fun j => segPixels x.seg (P.first + j))) ({ x with vis := Img.fill img.nx img.ny 0 }, [])
      (hinit _ (fill_wf _ _ _) ⟨rfl, rfl⟩ (fun q => by rw [val_fill]; exact hf))
      (fun k s hk hs => small_step hw hf hstart hs hk (by rw [hids]; simp [hk]))
    rw [hlens.1, y1, Res.ok_bind] at hres'
    exact ⟨y.1, y.2, hstart, y2, hres', hlens.1, hlens.2.1, hlens.2.2, hids⟩
  · rw [if_neg hany] at hres'
    have hno : ∀ j, j < d.origin.length → isSmall P.minArea x.area j = false := by
      intro j hj
      unfold isSmall
      rw [decide_eq_false_iff_not]
      intro hlt
      apply hany
      rw [List.any_eq_true]
      have hj' : j < x.area.length := by rw [hi.len.1]; exact hj
      refine ⟨x.area[j], List.getElem_mem hj', ?_⟩
      rw [List.getD_eq_getElem?_getD, List.getElem?_eq_getElem hj'] at hlt
      simpa using hlt
    have hT : ∀ k, k ≤ d.origin.length → TInv img P d.origin x.seg x.area (fun j => segPixels x.seg (P.first + j)) k ({ x with vis := Img.fill img.nx img.ny 0 }, []) := by
      intro k
      induction k with
      | zero => intro _; exact hinit _ (fill_wf _ _ _) ⟨rfl, rfl⟩ (fun q => by rw [val_fill]; exact hf)
      | succ k ih => intro hk; exact tinv_skip (ih (by omega)) (hno k (by omega))
    have hdrop : ∀ {β : Type} (l : List β), dropIds l [] = l := by
      intro β l
      unfold dropIds
      simp
    refine ⟨_, _, hstart, hT _ (Nat.le_refl _), ?_, hlens.1, hlens.2.1, hlens.2.2, hids⟩
    simp only [hdrop]
    exact hres'

/-- **C138** With a minimum area: the segments that are kept are those that have at least this area without a minimum (the peak being counted twice), with their numbers and peaks.
The pixels of these segments keep their label; those of a small segment all get the same label. This label is 0 only if no kept segment was next to it, else that of a kept segment which is next to it, the one
with the closest peak. -/
theorem C138_small {img : Img (Option K)} {P : DebParams K} {seg0 : Img Nat} {out0 : DebOut K} (hw : img.WF) (hf : 0 < P.first) (hne : img.px ≠ [])
    (h0 : segmentDeblend img {} (withArea P 0) = .ok (seg0, out0)) :
    let small := isSmall P.minArea out0.area
    let keep := (List.range out0.origin.length).filter fun j => !small j
    ∃ seg out, segmentDeblend img {} P = .ok (seg, out) ∧ seg.WF ∧ (seg.nx = img.nx ∧ seg.ny = img.ny) ∧
      out.id = keep.map (P.first + ·) ∧ out.origin = keep.map (out0.origin.getD · 0) ∧ out.py = keep.map (out0.py.getD · 0) ∧ out.px = keep.map (out0.px.getD · 0) ∧
      (∀ q, val seg0 q = 0 → val seg q = 0) ∧
      (∀ q j, val seg0 q = P.first + j → small j = false → val seg q = P.first + j) ∧
      (∀ q j, val seg0 q = P.first + j → small j = true → val seg q = val seg (peakOf img out0.origin j)) ∧
      ∀ j, j < out0.origin.length → small j = true → Target img out0.origin small P.first seg0 seg j := by
  obtain ⟨y, eids, hs, h, hr, l1, l2, l3, hids⟩ := deblend_small hw hf hne h0
  have he := h.eids
  simp only at he
  subst he
  refine ⟨_, _, hr, h.segw, h.segd, ?_, dropIds_eq rfl _ 0, dropIds_eq l2 _ 0, dropIds_eq l3 _ 0, h.zero, fun q j hv hc => h.big q j hv (Or.inl hc), fun q j hv hc => ?_, h.tgt⟩
  · simp only
    rw [dropIds_eq l1 _ 0]
    apply List.map_congr_left
    intro j hj
    have := List.mem_range.1 (List.mem_filter.1 hj).1
    rw [hids]
    simp [List.getD_eq_getElem?_getD, this]
  · obtain ⟨j', hj', hv'⟩ := hs.lab q (by omega)
    have : j' = j := by omega
    subst this
    exact h.sm q j' hv hc hj'

/-- **C138** Measurements of the segments that are kept: for lists of the pixels of the segments without minimum area, without repetition, they are those of the pixels of the segment and of the
small ones given to it, each with its peak counted twice (if it has another pixel). The limit of the barycentre is relative to the peak of the segment. -/
theorem C138_measures {img : Img (Option K)} {P : DebParams K} {seg0 seg : Img Nat} {out0 out : DebOut K} (hw : img.WF) (hf : 0 < P.first) (hne : img.px ≠ [])
    (h0 : segmentDeblend img {} (withArea P 0) = .ok (seg0, out0)) (h1 : segmentDeblend img {} P = .ok (seg, out)) (i b : Nat)
    (hb : ((List.range out0.origin.length).filter fun j => !isSmall P.minArea out0.area j)[i]? = some b) (L : Nat → List (Nat × Nat)) (hL : ∀ j, (L j).Nodup) (hmem : ∀ j q, q ∈ L j ↔ val seg0 q = P.first + j) :
    let o := peakOf img out0.origin b
    let T := (b :: merged img out0.origin (isSmall P.minArea out0.area) P.first seg out0.origin.length b).flatMap fun j => twice (peakOf img out0.origin j) (L j)
    let B := T.filter fun p => decide (P.flim * lumK img o ≤ lumK img p)
    let S := (B.map (lumK img)).sum
    out.area[i]? = some T.length ∧ out.flux[i]? = some (some (T.map (lumK img)).sum) ∧
      out.by_[i]? = some (if S = 0 then none else some ((B.map fun p => (p.1 : K) * lumK img p).sum / S)) ∧
      out.bx[i]? = some (if S = 0 then none else some ((B.map fun p => (p.2 : K) * lumK img p).sum / S)) := by
  obtain ⟨y, eids, hs, h, hr, l1, l2, l3, hids⟩ := deblend_small hw hf hne h0
  have he := h.eids
  simp only at he
  subst he
  have := h1.symm.trans hr
  rw [Res.ok.injEq, Prod.mk.injEq] at this
  obtain ⟨rfl, rfl⟩ := this
  have hbl : b < out0.origin.length := List.mem_range.1 (List.mem_filter.1 (List.mem_of_getElem? hb)).1
  obtain ⟨area, flux, by_, bx, fc, m1, m2, m3, m4, m5, m6⟩ := h.meas b hbl
  have hpm := m6.perm (L' := (b :: merged img out0.origin (isSmall P.minArea out0.area) P.first y.seg out0.origin.length b).flatMap fun j => twice (peakOf img out0.origin j) (L j)) (by
    apply List.Perm.flatMap_left
    intro j _
    have hp : (segPixels seg0 (P.first + j)).Perm (L j) := (List.perm_ext_iff_of_nodup (hs.nodup j) (hL j)).2 fun q => by rw [hmem, hs.mem]
    unfold twice
    rw [hp.length_eq]
    split
    · exact hp.cons _
    · exact hp)
  have hget : ∀ {β : Type} (l : List β) (a : β), l.length = out0.origin.length → l[b]? = some a → (dropIds l ((List.range out0.origin.length).filter (isSmall P.minArea out0.area)))[i]? = some a := by
    intro β l a hl ha
    rw [dropIds_eq hl _ a, List.getElem?_map, hb, Option.map_some, List.getD_eq_getElem?_getD, ha]; rfl
  refine ⟨?_, ?_, ?_, ?_⟩
  · simp only
    rw [hget _ _ h.len.1 m1, hpm.area]
  · simp only
    rw [hget _ _ h.len.2.1 m2, hpm.flux]
  · simp only [List.getElem?_zipWith, hget _ _ h.len.2.2.1 m3, hget _ _ h.len.2.2.2.2 m5, hpm.by_, hpm.fc]
    rfl
  · simp only [List.getElem?_zipWith, hget _ _ h.len.2.2.2.1 m4, hget _ _ h.len.2.2.2.2 m5, hpm.bx, hpm.fc]
    rfl

/-- a peak, 9, that is alone in its segment, since 3 is given to 7 -/
def lonePeak : Img (Option ℚ) := ⟨1, 4, [some 7, some 3, some 9, some 0]⟩

theorem lone_sort : sort lonePeak.px = [3, 1, 0, 2] := by symm; apply C14_sort_unique <;> decide +kernel

/-- without a minimum area -/
theorem lone_zero : segmentDeblend lonePeak {} (withArea ⟨2, 2, 2, 1, 0⟩ 0) =
    .ok (⟨1, 4, [2, 2, 1, 0]⟩, ⟨[1, 2], [1, 3], [some 0, some 0], [some 2, some (3 / 17)], [0, 0], [2, 0], [2, 0], [some 9, some 17]⟩) := by
  unfold segmentDeblend; rw [lone_sort]; decide +kernel

/-- with 2: segment 1 is given to segment 2 -/
theorem lone_two : segmentDeblend lonePeak {} ⟨2, 2, 2, 1, 0⟩ = .ok (⟨1, 4, [2, 2, 2, 0]⟩, ⟨[2], [4], [some 0], [some (21 / 26)], [0], [0], [0], [some 26]⟩) := by
  unfold segmentDeblend; rw [lone_sort]; decide +kernel

example : lonePeak.WF ∧ lonePeak.px ≠ [] ∧ isSmall 2 [1, 3] 0 = true ∧ isSmall 2 [1, 3] 1 = false := by decide +kernel

/-- **C138 refuted** (the segments have at least `min_area` pixels): a segment of two pixels is kept when `min_area` is 3, since the peak is counted twice. -/
theorem C138_area_refuted : ∃ seg out, segmentDeblend twoPeaks {} (withArea twoPar 3) = .ok (seg, out) ∧ 1 ∈ out.id ∧ (seg.px.filter (· = 1)).length = 2 :=
  ⟨⟨2, 6, [1, 1, 2, 2, 0, 0, 0, 0, 0, 0, 0, 0]⟩,
    ⟨[1, 2], [3, 3], [some 0, some 0], [some (3 / 21), some (52 / 19)], [0, 0], [0, 3], [0, 3], [some 21, some 19]⟩, by
      unfold segmentDeblend; rw [two_sort]; decide +kernel, by decide, by decide⟩

/-- **C138 refuted** (the peak is the brightest pixel of the segment): not after a small segment with a brighter peak was given to it. -/
theorem C138_peak_refuted : ∃ seg out, segmentDeblend lonePeak {} ⟨2, 2, 2, 1, 0⟩ = .ok (seg, out) ∧ out.origin = [0] ∧ val seg (0, 0) = 2 ∧ val seg (0, 2) = 2 ∧
    lum lonePeak (0, 0) = some 7 ∧ lum lonePeak (0, 2) = some 9 :=
  ⟨_, _, lone_two, rfl, by decide +kernel, by decide +kernel, by decide +kernel, by decide +kernel⟩

end Verif.Astro
