import Verif.Astro.DeblendProps
/-!
# The third part of `segment_deblend`
-/
namespace Verif.Astro
open Verif Verif.Find

variable {K : Type} [Field K] [LinearOrder K]

omit [Field K] [LinearOrder K] in
theorem setIds_spec (z : Nat) (P : List (Nat × Nat)) (s : Img Nat) (hw : s.WF) (hP : ∀ p ∈ P, p.1 < s.nx ∧ p.2 < s.ny) :
    ∃ s', setIds s (P.map (flat s)) z = .ok s' ∧ s'.WF ∧ s'.nx = s.nx ∧ s'.ny = s.ny ∧
      ∀ q, val s' q = if q ∈ P then z else val s q := by
  unfold setIds
  induction P generalizing s with
  | nil => exact ⟨s, rfl, hw, rfl, rfl, by simp⟩
  | cons p P ih =>
    have hr := hP p (by simp)
    have hl : flat s p < s.px.length := by rw [hw]; exact flat_lt hr.1 hr.2
    obtain ⟨w, w1, w2, w3, w4, w5, -⟩ := put_val hw hr z
    have hwe : w = { s with px := s.px.set (flat s p) z } := by
      unfold Img.put at w1
      rw [if_pos (show p.1 * s.ny + p.2 < s.px.length from hl), Res.ok.injEq] at w1
      exact w1.symm
    rw [List.map_cons, List.foldlM_cons, if_pos hl, Res.ok_bind, ← hwe]
    have hfl : P.map (flat s) = P.map (flat w) := by
      apply List.map_congr_left
      intro q _
      simp only [flat, w4]
    rw [hfl]
    obtain ⟨s', h1, h2, h3, h4, h5⟩ := ih w w2 fun q hq => by rw [w3, w4]; exact hP q (by simp [hq])
    refine ⟨s', h1, h2, by omega, by omega, ?_⟩
    intro q
    rw [h5, w5]
    by_cases e : q = p
    · simp [e]
    · by_cases e' : q ∈ P <;> simp [e, e']

/-- a pixel of another segment that is large enough -/
def Cand (seg : Img Nat) (area : List Nat) (first minArea cur : Nat) (p : Nat × Nat) : Prop :=
  val seg p ≠ 0 ∧ val seg p ≠ cur ∧ minArea ≤ area.getD (val seg p - first) 0

structure Nearest (seg : Img Nat) (area origin : List Nat) (first minArea cur : Nat) (l : List (Nat × Nat)) (a : Nat × Option Nat) : Prop where
  no : a.2 = none → a.1 = 0 ∧ ∀ p ∈ l, ¬ Cand seg area first minArea cur p
  yes : ∀ d, a.2 = some d → ∃ p ∈ l, Cand seg area first minArea cur p ∧ a.1 = val seg p ∧ d = peakDist seg origin first p ∧
    ∀ p' ∈ l, Cand seg area first minArea cur p' → d ≤ peakDist seg origin first p'

omit [Field K] [LinearOrder K] in
theorem small_fold {x : Isl K} {P : DebParams K} {origin : List Nat} {cur : Nat} (hlen : x.area.length = origin.length) :
    ∀ (l l0 : List (Nat × Nat)) (a : Nat × Option Nat), (∀ p ∈ l, val x.seg p ≠ 0 → val x.seg p - P.first < origin.length) →
    Nearest x.seg x.area origin P.first P.minArea cur l0 a →
    ∃ a', l.foldlM (fun a p => smallAdd x P origin cur a p (val x.seg p)) a = .ok a' ∧ Nearest x.seg x.area origin P.first P.minArea cur (l0 ++ l) a'
  | [], l0, a, _, h => ⟨a, rfl, by simpa using h⟩
  | p :: l, l0, a, hl, h => by
    have hstep : ∃ a1, smallAdd x P origin cur a p (val x.seg p) = .ok a1 ∧ Nearest x.seg x.area origin P.first P.minArea cur (l0 ++ [p]) a1 := by
      have hskip : ¬ Cand x.seg x.area P.first P.minArea cur p → Nearest x.seg x.area origin P.first P.minArea cur (l0 ++ [p]) a := by
        intro hc
        refine ⟨fun hn => ⟨(h.no hn).1, fun q hq => ?_⟩, fun d hd => ?_⟩
        · rcases List.mem_append.1 hq with h' | h'
          · exact (h.no hn).2 q h'
          · rw [List.mem_singleton] at h'; rw [h']; exact hc
        · obtain ⟨q, h1, h2, h3, h4, h5⟩ := h.yes d hd
          refine ⟨q, by simp [h1], h2, h3, h4, fun p' hp' hcp => ?_⟩
          rcases List.mem_append.1 hp' with h' | h'
          · exact h5 p' h' hcp
          · rw [List.mem_singleton] at h'; rw [h'] at hcp; exact absurd hcp hc
      unfold smallAdd
      by_cases h1 : val x.seg p > 0 ∧ val x.seg p ≠ cur
      · rw [if_pos h1]
        have hlt := hl p (by simp) (by omega)
        have hlt' : val x.seg p - P.first < x.area.length := by omega
        have harea : x.area.getD (val x.seg p - P.first) 0 = x.area[val x.seg p - P.first] := by
          rw [List.getD_eq_getElem?_getD, List.getElem?_eq_getElem hlt', Option.getD_some]
        have horig : origin.getD (val x.seg p - P.first) 0 = origin[val x.seg p - P.first] := by
          rw [List.getD_eq_getElem?_getD, List.getElem?_eq_getElem hlt, Option.getD_some]
        rw [Res.rd_lt hlt', Res.ok_bind]
        by_cases h2 : P.minArea ≤ x.area[val x.seg p - P.first]
        · rw [if_pos h2, Res.rd_lt hlt, Res.ok_bind]
          have hcand : Cand x.seg x.area P.first P.minArea cur p := ⟨by omega, h1.2, by rw [harea]; exact h2⟩
          have hpd : sqd p (origin[val x.seg p - P.first] / x.seg.ny, origin[val x.seg p - P.first] % x.seg.ny) = peakDist x.seg origin P.first p := by
            unfold peakDist; rw [horig]
          simp only [hpd]
          refine ⟨_, rfl, ?_⟩
          cases ha : a.2 with
          | none =>
            simp only [farther, if_true]
            refine ⟨fun h' => by simp at h', fun d hd => ?_⟩
            simp only [Option.some.injEq] at hd
            subst hd
            refine ⟨p, by simp, hcand, rfl, rfl, fun p' hp' hcp => ?_⟩
            rcases List.mem_append.1 hp' with h' | h'
            · exact absurd hcp ((h.no ha).2 p' h')
            · rw [List.mem_singleton] at h'; rw [h']
          | some c =>
            obtain ⟨q, g1, g2, g3, g4, g5⟩ := h.yes c ha
            by_cases hlt2 : peakDist x.seg origin P.first p < c
            · simp only [farther, hlt2, decide_true, if_true]
              refine ⟨fun h' => by simp at h', fun d hd => ?_⟩
              simp only [Option.some.injEq] at hd
              subst hd
              refine ⟨p, by simp, hcand, rfl, rfl, fun p' hp' hcp => ?_⟩
              rcases List.mem_append.1 hp' with h' | h'
              · have := g5 p' h' hcp; omega
              · rw [List.mem_singleton] at h'; rw [h']
            · simp only [farther, hlt2, decide_false, Bool.false_eq_true, if_false]
              refine ⟨fun h' => by (rw [ha] at h'; cases h'), fun d hd => ?_⟩
              rw [ha, Option.some.injEq] at hd
              subst hd
              refine ⟨q, by simp [g1], g2, g3, g4, fun p' hp' hcp => ?_⟩
              rcases List.mem_append.1 hp' with h' | h'
              · exact g5 p' h' hcp
              · rw [List.mem_singleton] at h'; rw [h']; omega
        · rw [if_neg h2]
          exact ⟨a, rfl, hskip fun hc => h2 (by rw [← harea]; exact hc.2.2)⟩
      · rw [if_neg h1]
        exact ⟨a, rfl, hskip fun hc => h1 ⟨by have := hc.1; omega, hc.2.1⟩⟩
    obtain ⟨a1, e1, e2⟩ := hstep
    obtain ⟨a2, g1, g2⟩ := small_fold hlen l (l0 ++ [p]) a1 (fun q hq => hl q (by simp [hq])) e2
    refine ⟨a2, ?_, by rw [List.append_assoc] at g2; exact g2⟩
    rw [List.foldlM_cons, e1, Res.ok_bind, g1]

theorem merge_fold {img : Img (Option K)} {flim : K} {o : Nat × Nat} (hw : img.WF) (ho : lum img o = some (lumK img o)) :
    ∀ (l L : List (Nat × Nat)) (a : Acc K), (∀ p ∈ l, (p.1 < img.nx ∧ p.2 < img.ny) ∧ lum img p = some (lumK img p)) →
    a.by_ = some ((L.filter (inBary img flim o)).map fun p => (p.1 : K) * lumK img p).sum → a.bx = some ((L.filter (inBary img flim o)).map fun p => (p.2 : K) * lumK img p).sum →
    a.fc = some ((L.filter (inBary img flim o)).map (lumK img)).sum →
    ∃ a', (l.map fun p => p.1 * img.ny + p.2).foldlM (mergeAdd img flim (lum img o) img.ny) a = .ok a' ∧ a'.area = a.area ∧ a'.flux = a.flux ∧
      a'.by_ = some (((L ++ l).filter (inBary img flim o)).map fun p => (p.1 : K) * lumK img p).sum ∧
      a'.bx = some (((L ++ l).filter (inBary img flim o)).map fun p => (p.2 : K) * lumK img p).sum ∧
      a'.fc = some (((L ++ l).filter (inBary img flim o)).map (lumK img)).sum
  | [], L, a, _, h1, h2, h3 => ⟨a, rfl, rfl, rfl, by simpa using h1, by simpa using h2, by simpa using h3⟩
  | p :: l, L, a, hl, h1, h2, h3 => by
    obtain ⟨hr, hp⟩ := hl p (by simp)
    have hlt : p.1 * img.ny + p.2 < img.px.length := by rw [hw]; exact flat_lt hr.1 hr.2
    have hpx : img.px[p.1 * img.ny + p.2]? = some (lum img p) := by
      rw [lum_flat hr, elt, List.getD_eq_getElem?_getD, List.getElem?_eq_getElem hlt, Option.getD_some]
    have hpos : ((p.1 * img.ny + p.2) / img.ny, (p.1 * img.ny + p.2) % img.ny) = p := flat_pos (img := img) hr.2
    have hg : geO (lum img p) (mulO (some flim) (lum img o)) = inBary img flim o p := by
      rw [ho, hp]; rfl
    obtain ⟨a1, e1, e2, e3, e4, e5, e6⟩ : ∃ a1, centroid flim (lum img o) (lum img p) p a = a1 ∧ a1.area = a.area ∧ a1.flux = a.flux ∧
        a1.by_ = some (((L ++ [p]).filter (inBary img flim o)).map fun p => (p.1 : K) * lumK img p).sum ∧
        a1.bx = some (((L ++ [p]).filter (inBary img flim o)).map fun p => (p.2 : K) * lumK img p).sum ∧
        a1.fc = some (((L ++ [p]).filter (inBary img flim o)).map (lumK img)).sum := by
      refine ⟨_, rfl, ?_⟩
      unfold centroid
      rw [hg, hp, h1, h2, h3]
      cases hb : inBary img flim o p
      · simp [hb, h1, h2, h3]
      · simp [hb, addO, mulO]
    obtain ⟨a2, g1, g2, g3, g4, g5, g6⟩ := merge_fold hw ho l (L ++ [p]) a1 (fun q hq => hl q (by simp [hq])) e4 e5 e6
    refine ⟨a2, ?_, by rw [g2, e2], by rw [g3, e3], ?_, ?_, ?_⟩
    · rw [List.map_cons, List.foldlM_cons, mergeAdd, chk_some hpx, Res.ok_bind, hpos, e1, Res.ok_bind, g1]
    · rw [g4, List.append_assoc]; rfl
    · rw [g5, List.append_assoc]; rfl
    · rw [g6, List.append_assoc]; rfl

/-- Spec: the segment `j` has less than `minArea` pixels (the peak being counted twice) -/
def isSmall (minArea : Nat) (area : List Nat) (j : Nat) : Bool := decide (area.getD j 0 < minArea)

/-- Spec: the peak of segment `j` -/
def peakOf (img : Img (Option K)) (origin : List Nat) (j : Nat) : Nat × Nat := pos img (origin.getD j 0)

/-- Spec: the small segments, among the `k` first ones, that are given to segment `b` in the map `seg` -/
def merged (img : Img (Option K)) (origin : List Nat) (small : Nat → Bool) (first : Nat) (seg : Img Nat) (k b : Nat) : List Nat :=
  (List.range k).filter fun j => small j && decide (val seg (peakOf img origin j) = first + b)

/-- Spec: where the small segment `j` of the map `old` goes. It is erased, and then all the segments next to it are small, or it gets the label of
a large segment that is next to it at pixel `q`, the closest to its peak. -/
def Target (img : Img (Option K)) (origin : List Nat) (small : Nat → Bool) (first : Nat) (old seg : Img Nat) (j : Nat) : Prop :=
  (val seg (peakOf img origin j) = 0 ∧ ∀ p q b, val old p = first + j → Adj p q → val old q = first + b → small b = true) ∨
    ∃ p q b, val seg (peakOf img origin j) = first + b ∧ b < origin.length ∧ small b = false ∧ val old p = first + j ∧ Adj p q ∧ val seg q = first + b ∧
      ∀ p' q' b', val old p' = first + j → Adj p' q' → val old q' = first + b' → small b' = false → sqd q (peakOf img origin b) ≤ sqd q' (peakOf img origin b')

/-- what is known of the map before the third part -/
structure Start (img : Img (Option K)) (P : DebParams K) (origin : List Nat) (old : Img Nat) (area : List Nat) (L : Nat → List (Nat × Nat)) : Prop where
  dims : old.nx = img.nx ∧ old.ny = img.ny
  len : area.length = origin.length
  lab : ∀ q, val old q ≠ 0 → ∃ j, j < origin.length ∧ val old q = P.first + j
  own : ∀ j, j < origin.length → origin.getD j 0 < img.px.length ∧ val old (peakOf img origin j) = P.first + j
  link : ∀ j q, j < origin.length → (val old q = P.first + j ↔ Linked old (peakOf img origin j) q)
  fin : ∀ q, val old q ≠ 0 → lum img q = some (lumK img q)
  nodup : ∀ j, (L j).Nodup
  mem : ∀ j q, q ∈ L j ↔ val old q = P.first + j
  area : ∀ j, j < origin.length → area[j]? = some (twice (peakOf img origin j) (L j)).length

/-- what holds before segment `k` of the third part -/
structure TInv (img : Img (Option K)) (P : DebParams K) (origin : List Nat) (old : Img Nat) (area0 : List Nat) (L : Nat → List (Nat × Nat)) (k : Nat) (y : Isl K × List Nat) : Prop where
  segw : y.1.seg.WF
  segd : y.1.seg.nx = img.nx ∧ y.1.seg.ny = img.ny
  visw : y.1.vis.WF
  visd : y.1.vis.nx = img.nx ∧ y.1.vis.ny = img.ny
  vis : ∀ q, val y.1.vis q < P.first + k
  len : y.1.area.length = origin.length ∧ y.1.flux.length = origin.length ∧ y.1.by_.length = origin.length ∧ y.1.bx.length = origin.length ∧ y.1.fc.length = origin.length
  zero : ∀ q, val old q = 0 → val y.1.seg q = 0
  big : ∀ q j, val old q = P.first + j → (isSmall P.minArea area0 j = false ∨ k ≤ j) → val y.1.seg q = P.first + j
  sm : ∀ q j, val old q = P.first + j → isSmall P.minArea area0 j = true → j < k → val y.1.seg q = val y.1.seg (peakOf img origin j)
  tgt : ∀ j, j < k → isSmall P.minArea area0 j = true → Target img origin (isSmall P.minArea area0) P.first old y.1.seg j
  meas : ∀ b, b < origin.length → ∃ area flux by_ bx fc, y.1.area[b]? = some area ∧ y.1.flux[b]? = some flux ∧ y.1.by_[b]? = some by_ ∧ y.1.bx[b]? = some bx ∧ y.1.fc[b]? = some fc ∧
    Measured img P.flim (peakOf img origin b)
      ((b :: merged img origin (isSmall P.minArea area0) P.first y.1.seg k b).flatMap fun j => twice (peakOf img origin j) (L j)) area flux by_ bx fc
  eids : y.2 = (List.range k).filter (isSmall P.minArea area0)

variable {img : Img (Option K)} {P : DebParams K} {origin : List Nat} {old : Img Nat} {area0 : List Nat} {L : Nat → List (Nat × Nat)} {k : Nat} {y : Isl K × List Nat}

/-- the labels are those of the large segments, or of the segments that are still to do -/
theorem TInv.lab (hs : Start img P origin old area0 L) (h : TInv img P origin old area0 L k y) (hk : k ≤ origin.length) (q : Nat × Nat) (hq : val y.1.seg q ≠ 0) :
    ∃ b, b < origin.length ∧ val y.1.seg q = P.first + b ∧ (isSmall P.minArea area0 b = false ∨ k ≤ b) := by
  have h0 : val old q ≠ 0 := fun e => hq (h.zero q e)
  obtain ⟨j, hj, hv⟩ := hs.lab q h0
  by_cases hc : isSmall P.minArea area0 j = false ∨ k ≤ j
  · exact ⟨j, hj, h.big q j hv hc, hc⟩
  · rw [not_or, Bool.not_eq_false] at hc
    have hjk : j < k := by omega
    have hv' := h.sm q j hv hc.1 hjk
    rcases h.tgt j hjk hc.1 with ⟨e, -⟩ | ⟨p, q', b, h1, h2, h3, -⟩
    · rw [hv', e] at hq; exact absurd rfl hq
    · exact ⟨b, h2, by rw [hv', h1], Or.inl h3⟩

/-- nothing is given to a small segment -/
theorem merged_small (hs : Start img P origin old area0 L) (hf : 0 < P.first) (h : TInv img P origin old area0 L k y) (hk : k ≤ origin.length) {b : Nat}
    (hb : isSmall P.minArea area0 b = true) : merged img origin (isSmall P.minArea area0) P.first y.1.seg k b = [] := by
  unfold merged
  rw [List.filter_eq_nil_iff]
  intro j hj
  rw [List.mem_range] at hj
  simp only [Bool.and_eq_true, decide_eq_true_eq, not_and]
  intro hsm hv
  rcases h.tgt j hj hsm with ⟨e, -⟩ | ⟨p, q', b', h1, h2, h3, -⟩
  · omega
  · have : b = b' := by omega
    subst this
    rw [hb] at h3; cases h3

theorem area_small (hs : Start img P origin old area0 L) (hf : 0 < P.first) (h : TInv img P origin old area0 L k y) (hk : k ≤ origin.length) {b area : Nat}
    (hb : b < origin.length) (ha : y.1.area[b]? = some area) : P.minArea ≤ area ↔ isSmall P.minArea area0 b = false := by
  obtain ⟨area', flux, by_, bx, fc, h1, -, -, -, -, h2⟩ := h.meas b hb
  rw [ha, Option.some.injEq] at h1
  subst h1
  have h3 := h2.area
  rw [List.flatMap_cons, List.length_append] at h3
  have h4 : area0.getD b 0 = (twice (peakOf img origin b) (L b)).length := by rw [List.getD_eq_getElem?_getD, hs.area b hb]; rfl
  cases hsm : isSmall P.minArea area0 b with
  | true =>
    rw [merged_small hs hf h hk hsm] at h3
    simp only [isSmall, decide_eq_true_eq] at hsm
    simp only [List.flatMap_nil, List.length_nil] at h3
    simp only [Bool.true_eq_false, iff_false]
    omega
  | false =>
    simp only [isSmall, decide_eq_false_iff_not] at hsm
    simp only [iff_true]
    omega

theorem merged_congr {small : Nat → Bool} {first : Nat} {seg seg' : Img Nat} {b : Nat} (h : ∀ j, j < k → val seg' (peakOf img origin j) = val seg (peakOf img origin j)) :
    merged img origin small first seg' k b = merged img origin small first seg k b := by
  unfold merged
  apply List.filter_congr
  intro j hj
  rw [h j (List.mem_range.1 hj)]

theorem merged_succ {small : Nat → Bool} {first : Nat} {seg : Img Nat} {b : Nat} : merged img origin small first seg (k + 1) b =
    merged img origin small first seg k b ++ if small k = true ∧ val seg (peakOf img origin k) = first + b then [k] else [] := by
  unfold merged
  rw [List.range_succ, List.filter_append]
  congr 1
  by_cases hc : small k = true ∧ val seg (peakOf img origin k) = first + b
  · rw [if_pos hc]; simp [hc.1, hc.2]
  · rw [if_neg hc, List.filter_cons_of_neg (by simpa using hc)]; rfl

/-- a large segment is skipped -/
theorem tinv_skip (h : TInv img P origin old area0 L k y) (hk : isSmall P.minArea area0 k = false) : TInv img P origin old area0 L (k + 1) y where
  segw := h.segw
  segd := h.segd
  visw := h.visw
  visd := h.visd
  vis q := by have := h.vis q; omega
  len := h.len
  zero := h.zero
  big q j hv hc := by
    refine h.big q j hv ?_
    rcases hc with hc | hc
    · exact Or.inl hc
    · exact Or.inr (by omega)
  sm q j hv hc hj := by
    refine h.sm q j hv hc ?_
    have : j ≠ k := by rintro rfl; rw [hk] at hc; cases hc
    omega
  tgt j hj hc := by
    refine h.tgt j ?_ hc
    have : j ≠ k := by rintro rfl; rw [hk] at hc; cases hc
    omega
  meas b hb := by
    rw [merged_succ, if_neg (by simp [hk]), List.append_nil]
    exact h.meas b hb
  eids := by rw [h.eids, List.range_succ, List.filter_append, List.filter_cons_of_neg (by simp [hk])]; simp

theorem small_step (hw : img.WF) (hf : 0 < P.first) (hs : Start img P origin old area0 L) (h : TInv img P origin old area0 L k y) (hk : k < origin.length) {ids : List Nat}
    (hids : ids[k]? = some (P.first + k)) :
    ∃ y', smallSegment img P ids origin y k = .ok y' ∧ TInv img P origin old area0 L (k + 1) y' := by
  obtain ⟨area, flux, by_, bx, fc, m1, m2, m3, m4, m5, m6⟩ := h.meas k hk
  unfold smallSegment
  rw [chk_some hids, Res.ok_bind, chk_some m1, Res.ok_bind]
  have hsa := area_small hs hf h (by omega) hk m1
  by_cases hsm : isSmall P.minArea area0 k = false
  · rw [if_pos (hsa.2 hsm)]
    exact ⟨y, rfl, tinv_skip h hsm⟩
  rw [if_neg (fun h' => hsm (hsa.1 h'))]
  rw [Bool.not_eq_false] at hsm
  rw [merged_small hs hf h (by omega) hsm] at m6
  simp only [List.flatMap_cons, List.flatMap_nil, List.append_nil] at m6
  obtain ⟨mk, hmk⟩ : ∃ m, origin[k]? = some m := ⟨_, List.getElem?_eq_getElem hk⟩
  have hpk : pos img mk = peakOf img origin k := by unfold peakOf; rw [List.getD_eq_getElem?_getD, hmk]; rfl
  rw [chk_some hmk, Res.ok_bind]
  obtain ⟨hml, hmv⟩ := hs.own k hk
  have hpo : (mk / y.1.seg.ny, mk % y.1.seg.ny) = peakOf img origin k := by rw [h.segd.2]; exact hpk
  simp only [hpo]
  set o := peakOf img origin k with ho
  have hvo : val y.1.seg o = P.first + k := h.big o k hmv (Or.inr (Nat.le_refl _))
  have hlab : ∀ q, val y.1.seg q = P.first + k ↔ val old q = P.first + k := by
    intro q
    constructor
    · intro hq
      have h0 : val old q ≠ 0 := fun e => by rw [h.zero q e] at hq; omega
      obtain ⟨j, hj, hv⟩ := hs.lab q h0
      by_cases hc : isSmall P.minArea area0 j = false ∨ k ≤ j
      · rw [h.big q j hv hc] at hq
        rw [hv]; exact hq
      · rw [not_or, Bool.not_eq_false] at hc
        have hjk : j < k := by omega
        rw [h.sm q j hv hc.1 hjk] at hq
        rcases h.tgt j hjk hc.1 with ⟨e, -⟩ | ⟨p, q', b, h1, h2, h3, -⟩
        · omega
        · have : b = k := by omega
          subst this
          rw [hsm] at h3; cases h3
    · intro hq
      exact h.big q k hq (Or.inr (Nat.le_refl _))
  have hlink : ∀ q, Linked y.1.seg o q ↔ val old q = P.first + k := by
    intro q
    constructor
    · intro hl
      exact (hlab q).1 (hl.val.trans hvo)
    · intro hq
      have hl := (hs.link k q hk).1 hq
      rw [← ho] at hl
      unfold Linked
      rw [hvo]
      unfold Linked at hl
      rw [hmv] at hl
      exact Relation.ReflTransGen.mono (fun a b hab => ⟨hab.1, (hlab b).2 hab.2⟩) _ _ hl
  obtain ⟨w, seen, R, w1, w2, w3, w4, w5, w6, w7, w8, w9, w10⟩ := walkA_spec (seg := y.1.seg) (vis := y.1.vis) (o := o) h.segw h.visw
    ⟨by rw [h.visd.1, h.segd.1], by rw [h.visd.2, h.segd.2]⟩ (by omega) (fun q => by have := h.vis q; omega)
  have hmemP : ∀ q, q ∈ o :: R ↔ val old q = P.first + k := fun q => (w7 q).trans (hlink q)
  have hperm : (o :: R).Perm (twice o (L k)) := twice_perm w6 w8 (hs.nodup k) (fun q => by rw [hs.mem, hmemP])
  obtain ⟨a, f1, f2⟩ := small_fold (x := y.1) (P := P) (origin := origin) (cur := P.first + k) h.len.1 seen [] (0, none)
    (fun p _ hp => by obtain ⟨b, hb, hv, -⟩ := h.lab hs (by omega) p hp; omega) ⟨fun _ => ⟨rfl, by simp⟩, fun d hd => by simp at hd⟩
  rw [List.nil_append] at f2
  rw [hvo] at w10
  rw [w10, f1, Res.ok_bind, Res.ok_bind]
  have hrng : ∀ p ∈ o :: R, p.1 < y.1.seg.nx ∧ p.2 < y.1.seg.ny := fun p hp => val_ne (by rw [(hlab p).2 ((hmemP p).1 hp)]; omega)
  obtain ⟨seg, s1, s2, s3, s4, s5⟩ := setIds_spec a.1 (o :: R) y.1.seg h.segw hrng
  simp only
  rw [w4, s1, Res.ok_bind]
  -- the pixels around
  have hcand : ∀ q b, b < origin.length → val y.1.seg q = P.first + b → (Cand y.1.seg y.1.area P.first P.minArea (P.first + k) q ↔ isSmall P.minArea area0 b = false) := by
    intro q b hb hv
    obtain ⟨area', -, -, -, -, ha', -⟩ := h.meas b hb
    rw [← area_small hs hf h (by omega) hb ha']
    unfold Cand
    rw [hv, Nat.add_sub_cancel_left, List.getD_eq_getElem?_getD, ha', Option.getD_some]
    constructor
    · exact fun h' => h'.2.2
    · intro h'
      refine ⟨by omega, ?_, h'⟩
      intro e
      have : b = k := by omega
      subst this
      rw [area_small hs hf h (by omega) hb ha', hsm] at h'
      cases h'
  have haround : ∀ p q b, val old p = P.first + k → Adj p q → val old q = P.first + b → isSmall P.minArea area0 b = false →
      b < origin.length ∧ val y.1.seg q = P.first + b ∧ q ∈ seen ∧ Cand y.1.seg y.1.area P.first P.minArea (P.first + k) q := by
    intro p q b hp hadj hq hb
    obtain ⟨j, hj, hv⟩ := hs.lab q (by omega)
    have : j = b := by omega
    subst this
    have hy := h.big q j hq (Or.inl hb)
    have hr := val_ne (show val y.1.seg q ≠ 0 by omega)
    exact ⟨hj, hy, (w9 q).2 (Or.inr ⟨hr.1, hr.2, p, (hlink p).2 hp, hadj⟩), (hcand q j hj hy).2 hb⟩
  have hpeak : ∀ q b, val y.1.seg q = P.first + b → peakDist y.1.seg origin P.first q = sqd q (peakOf img origin b) := by
    intro q b hv
    unfold peakDist peakOf pos
    rw [hv, Nat.add_sub_cancel_left, h.segd.2]
  have hout : ∀ q, val old q ≠ P.first + k → val seg q = val y.1.seg q := by
    intro q hq
    rw [s5, if_neg (fun h' => hq ((hmemP q).1 h'))]
  have hin : ∀ q, val old q = P.first + k → val seg q = a.1 := by
    intro q hq
    rw [s5, if_pos ((hmemP q).2 hq)]
  have hsego : val seg o = a.1 := hin o hmv
  have hpk' : ∀ j, j < k → val seg (peakOf img origin j) = val y.1.seg (peakOf img origin j) := by
    intro j hj
    refine hout _ ?_
    rw [(hs.own j (by omega)).2]; omega
  have htk : Target img origin (isSmall P.minArea area0) P.first old seg k := by
    cases ha : a.2 with
    | none =>
      left
      obtain ⟨g1, g2⟩ := f2.no ha
      refine ⟨by rw [← ho, hsego, g1], fun p q b hp hadj hq => ?_⟩
      by_contra hc
      rw [Bool.not_eq_true] at hc
      obtain ⟨-, -, h3, h4⟩ := haround p q b hp hadj hq hc
      exact g2 q h3 h4
    | some d =>
      right
      obtain ⟨q, g1, g2, g3, g4, g5⟩ := f2.yes d ha
      obtain ⟨b, hb, hv, -⟩ := h.lab hs (by omega) q g2.1
      have hbs := (hcand q b hb hv).1 g2
      have hqo : q ≠ o := by
        rintro rfl
        exact g2.2.1 hvo
      have hqold : val old q ≠ P.first + k := fun e => g2.2.1 ((hlab q).2 e)
      rcases (w9 q).1 g1 with e | ⟨-, -, p, hl, hadj⟩
      · exact absurd e hqo
      refine ⟨p, q, b, by rw [← ho, hsego, g3, hv], hb, hbs, (hlink p).1 hl, hadj, by rw [hout q hqold, hv], fun p' q' b' hp' hadj' hq' hb' => ?_⟩
      obtain ⟨h1, h2, h3, h4⟩ := haround p' q' b' hp' hadj' hq' hb'
      rw [← hpeak q b hv, ← hpeak q' b' h2, ← g4]
      exact g5 q' h3 h4
  -- everything but the measurements
  have hmain : ∀ z : Isl K, z.seg = seg → z.vis = w.vis → (z.area.length = origin.length ∧ z.flux.length = origin.length ∧ z.by_.length = origin.length ∧
      z.bx.length = origin.length ∧ z.fc.length = origin.length) → (∀ b, b < origin.length → ∃ area flux by_ bx fc, z.area[b]? = some area ∧ z.flux[b]? = some flux ∧
        z.by_[b]? = some by_ ∧ z.bx[b]? = some bx ∧ z.fc[b]? = some fc ∧ Measured img P.flim (peakOf img origin b)
      ((b :: merged img origin (isSmall P.minArea area0) P.first seg (k + 1) b).flatMap fun j => twice (peakOf img origin j) (L j)) area flux by_ bx fc) →
      TInv img P origin old area0 L (k + 1) (z, y.2 ++ [k]) := by
    intro z e1 e2 hz1 hz2
    refine ⟨by simp only [e1]; exact s2, by simp only [e1]; exact ⟨by rw [s3, h.segd.1], by rw [s4, h.segd.2]⟩, by simp only [e2]; exact w1,
      by simp only [e2]; exact ⟨by rw [w2.1, h.segd.1], by rw [w2.2, h.segd.2]⟩, ?_, hz1, ?_, ?_, ?_, ?_, by simp only [e1]; exact hz2, ?_⟩
    · intro q
      simp only [e2]
      rcases w3 q with h' | h'
      · omega
      · have := h.vis q; omega
    · intro q hq
      simp only [e1]
      rw [hout q (by omega), h.zero q hq]
    · intro q j hv hc
      simp only [e1]
      have hjk : j ≠ k := by
        rintro rfl
        rcases hc with hc | hc
        · rw [hsm] at hc; cases hc
        · omega
      rw [hout q (by omega)]
      refine h.big q j hv ?_
      rcases hc with hc | hc
      · exact Or.inl hc
      · exact Or.inr (by omega)
    · intro q j hv hc hj
      simp only [e1]
      by_cases hjk : j = k
      · subst hjk
        rw [hin q hv, ← ho, hsego]
      · rw [hout q (by omega), hpk' j (by omega)]
        exact h.sm q j hv hc (by omega)
    · intro j hj hc
      simp only [e1]
      by_cases hjk : j = k
      · subst hjk; exact htk
      · rcases h.tgt j (by omega) hc with ⟨t1, t2⟩ | ⟨p, q, b, t1, t2, t3, t4, t5, t6, t7⟩
        · exact Or.inl ⟨by rw [hpk' j (by omega)]; exact t1, t2⟩
        · refine Or.inr ⟨p, q, b, by rw [hpk' j (by omega)]; exact t1, t2, t3, t4, t5, ?_, t7⟩
          rw [hout q, t6]
          intro e
          rw [(hlab q).2 e] at t6
          have : k = b := by omega
          subst this
          rw [hsm] at t3; cases t3
    · simp only
      rw [h.eids, List.range_succ, List.filter_append, List.filter_cons_of_pos (by simp [hsm])]; simp
  by_cases hn : a.1 = 0
  · rw [if_neg (by simpa using hn)]
    refine ⟨_, rfl, hmain _ rfl rfl h.len ?_⟩
    intro b hb
    rw [merged_succ, if_neg (by rw [← ho, hsego, hn]; omega), List.append_nil, merged_congr hpk']
    exact h.meas b hb
  · rw [if_pos hn]
    obtain ⟨b, hb, hv, hbs⟩ : ∃ b, b < origin.length ∧ a.1 = P.first + b ∧ isSmall P.minArea area0 b = false := by
      rcases htk with ⟨t1, -⟩ | ⟨p, q, b, t1, t2, t3, -⟩
      · rw [← ho, hsego] at t1; exact absurd t1 hn
      · exact ⟨b, t2, by rw [← hsego, ho]; exact t1, t3⟩
    obtain ⟨areab, fluxb, byb, bxb, fcb, n1, n2, n3, n4, n5, n6⟩ := h.meas b hb
    obtain ⟨mb, hmb⟩ : ∃ m, origin[b]? = some m := ⟨_, List.getElem?_eq_getElem hb⟩
    have hpb : pos img mb = peakOf img origin b := by unfold peakOf; rw [List.getD_eq_getElem?_getD, hmb]; rfl
    have hmbl : mb < img.px.length := by
      have := (hs.own b hb).1
      rw [List.getD_eq_getElem?_getD, hmb] at this
      exact this
    have hpx : img.px[mb]? = some (lum img (peakOf img origin b)) := by
      rw [← hpb, lum_pos hw hmbl, elt, List.getD_eq_getElem?_getD, List.getElem?_eq_getElem hmbl, Option.getD_some]
    have hlb : lum img (peakOf img origin b) = some (lumK img (peakOf img origin b)) := hs.fin _ (by rw [(hs.own b hb).2]; omega)
    have hbk : k ≠ b := by rintro rfl; rw [hsm] at hbs; cases hbs
    rw [hv, Nat.add_sub_cancel_left, chk_some n1, Res.ok_bind, chk_some m2, Res.ok_bind, chk_some n2, Res.ok_bind, chk_some hmb, Res.ok_bind, chk_some hpx, Res.ok_bind,
      chk_some n3, Res.ok_bind, chk_some n4, Res.ok_bind, chk_some n5, Res.ok_bind]
    set LB := (b :: merged img origin (isSmall P.minArea area0) P.first y.1.seg k b).flatMap fun j => twice (peakOf img origin j) (L j) with hLB
    have hflat : (o :: R).map (flat y.1.seg) = (o :: R).map fun p => p.1 * img.ny + p.2 := by
      apply List.map_congr_left
      intro p _
      simp only [flat, h.segd.2]
    obtain ⟨c, c1, c2, c3, c4, c5, c6⟩ := merge_fold (flim := P.flim) hw hlb (o :: R) LB ⟨seg, areab + area, addO fluxb flux, byb, bxb, fcb⟩
      (fun p hp => ⟨by have := hrng p hp; rw [h.segd.1, h.segd.2] at this; exact this, hs.fin p (by rw [(hmemP p).1 hp]; omega)⟩) n6.by_ n6.bx n6.fc
    rw [hflat, c1, Res.ok_bind]
    refine ⟨_, rfl, hmain _ rfl rfl (by simp [h.len]) ?_⟩
    intro b' hb'
    rw [merged_succ, merged_congr hpk', ← ho, hsego, hv]
    by_cases e : b' = b
    · subst e
      rw [if_pos ⟨hsm, rfl⟩]
      refine ⟨c.area, c.flux, c.by_, c.bx, c.fc, by simp [h.len, hb'], by simp [h.len, hb'], by simp [h.len, hb'], by simp [h.len, hb'], by simp [h.len, hb'], ?_⟩
      have hL : ((b' :: (merged img origin (isSmall P.minArea area0) P.first y.1.seg k b' ++ [k])).flatMap fun j => twice (peakOf img origin j) (L j)) = LB ++ twice o (L k) := by
        rw [hLB, ← List.cons_append, List.flatMap_append]
        simp [ho]
      rw [hL]
      have hp2 : (LB ++ (o :: R)).Perm (LB ++ twice o (L k)) := hperm.append_left LB
      refine Measured.perm ?_ hp2
      refine ⟨?_, ?_, c4, c5, c6⟩
      · rw [c2]
        simp only
        rw [n6.area, m6.area, List.length_append, hperm.length_eq]
      · rw [c3]
        simp only
        rw [n6.flux, m6.flux, List.map_append, List.sum_append, (hperm.map _).sum_eq]
        rfl
    · rw [if_neg (by omega), List.append_nil]
      obtain ⟨area', flux', by', bx', fc', r1, r2, r3, r4, r5, r6⟩ := h.meas b' hb'
      refine ⟨area', flux', by', bx', fc', ?_, ?_, ?_, ?_, ?_, r6⟩ <;> (simp only; rw [List.getElem?_set_ne (by omega)]; assumption)

end Verif.Astro
