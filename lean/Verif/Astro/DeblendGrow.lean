import Verif.Astro.DeblendLook
import Verif.Find.SortProps
/-!
# The first part of `segment_deblend`
-/
namespace Verif.Astro
open Verif Verif.Find

variable {K : Type} [LinearOrder K]

/-- Spec: the value of a pixel, if it is finite -/
def lum {K : Type} (img : Img (Option K)) (p : Nat × Nat) : Option K := (img.at p.1 p.2).getD none

/-- Spec: the position of element `m` -/
def pos {β : Type} (img : Img β) (m : Nat) : Nat × Nat := (m / img.ny, m % img.ny)

theorem pos_rng {β : Type} {img : Img β} (hw : img.WF) {m : Nat} (h : m < img.px.length) : (pos img m).1 < img.nx ∧ (pos img m).2 < img.ny := by
  rw [hw] at h
  have hny : 0 < img.ny := by
    rcases Nat.eq_zero_or_pos img.ny with h0 | h0
    · rw [h0] at h; simp at h
    · exact h0
  exact ⟨by show m / img.ny < _; rw [Nat.div_lt_iff_lt_mul hny]; exact h, Nat.mod_lt _ hny⟩

theorem pos_flat {β : Type} {img : Img β} (m : Nat) : (pos img m).1 * img.ny + (pos img m).2 = m := by
  show m / img.ny * img.ny + m % img.ny = m
  rw [Nat.mul_comm]; exact Nat.div_add_mod m img.ny

theorem flat_pos {β : Type} {img : Img β} {p : Nat × Nat} (h : p.2 < img.ny) : pos img (p.1 * img.ny + p.2) = p := by
  unfold pos
  have e1 : (p.1 * img.ny + p.2) / img.ny = p.1 := by
    rw [Nat.mul_comm, Nat.mul_add_div (by omega), Nat.div_eq_of_lt h]; omega
  have e2 : (p.1 * img.ny + p.2) % img.ny = p.2 := by
    rw [Nat.mul_comm, Nat.mul_add_mod, Nat.mod_eq_of_lt h]
  rw [e1, e2]

omit [LinearOrder K] in
theorem lum_pos {img : Img (Option K)} (hw : img.WF) {m : Nat} (h : m < img.px.length) : lum img (pos img m) = elt img.px m := by
  unfold lum Img.at
  rw [if_pos (pos_rng hw h), pos_flat, elt, List.getD_eq_getElem?_getD]

omit [LinearOrder K] in
theorem lum_flat {img : Img (Option K)} {p : Nat × Nat} (h : p.1 < img.nx ∧ p.2 < img.ny) : lum img p = elt img.px (p.1 * img.ny + p.2) := by
  unfold lum Img.at
  rw [if_pos h, elt, List.getD_eq_getElem?_getD]

theorem sort_get_le {v : List (Option K)} {i j m m' : Nat} (hij : i < j) (hi : (sort v)[i]? = some m) (hj : (sort v)[j]? = some m') :
    FP.le (elt v m) (elt v m') = true := by
  have h := List.pairwise_iff_getElem.1 (sort_le v)
  obtain ⟨h1, e1⟩ := List.getElem?_eq_some_iff.1 hi
  obtain ⟨h2, e2⟩ := List.getElem?_eq_some_iff.1 hj
  have := h i j h1 h2 hij
  rwa [e1, e2] at this

theorem sort_get_inj {v : List (Option K)} {i j m : Nat} (hi : (sort v)[i]? = some m) (hj : (sort v)[j]? = some m) : i = j := by
  obtain ⟨h1, e1⟩ := List.getElem?_eq_some_iff.1 hi
  obtain ⟨h2, e2⟩ := List.getElem?_eq_some_iff.1 hj
  exact (sort_nodup v).getElem_inj_iff.1 (e1.trans e2.symm)

theorem sort_get_lt {v : List (Option K)} {i m : Nat} (hi : (sort v)[i]? = some m) : m < v.length := (sort_lt v m).1 (List.mem_of_getElem? hi)

/-- Spec: pixel `p` comes before `q`, from the brightest pixel on -/
def Sooner (img : Img (Option K)) (p q : Nat × Nat) : Prop :=
  ∃ i j : Nat, i < j ∧ (sort img.px)[i]? = some (q.1 * img.ny + q.2) ∧ (sort img.px)[j]? = some (p.1 * img.ny + p.2)

/-- Spec: how pixel `q` got its label. It is a peak, and no pixel before is within reach, or it has the label of one of the nearest pixels before,
the one that is closest to its peak. -/
def Ruled (img : Img (Option K)) (reach first : Nat) (seg : Img Nat) (origin : List Nat) (q : Nat × Nat) : Prop :=
  (∃ m ∈ origin, pos img m = q ∧ ∀ q', val seg q' ≠ 0 → Sooner img q' q → reach ≤ mdist q q') ∨
    ∃ q', val seg q' ≠ 0 ∧ Sooner img q' q ∧ mdist q q' < reach ∧ val seg q = val seg q' ∧ ∀ q'', val seg q'' ≠ 0 → Sooner img q'' q →
      mdist q q' ≤ mdist q q'' ∧ (mdist q q'' = mdist q q' → peakDist seg origin first q' ≤ peakDist seg origin first q'')

theorem Ruled.grow {img : Img (Option K)} {reach first : Nat} {seg seg' : Img Nat} {origin ext : List Nat} {o q : Nat × Nat} (h : Ruled img reach first seg origin q)
    (hs : ∀ q, q ≠ o → val seg' q = val seg q) (hny : seg'.ny = seg.ny)
    (hlab : ∀ q, val seg q ≠ 0 → val seg q - first < origin.length) (hb : ¬ Sooner img o q) (hz : val seg o = 0) (hq : val seg q ≠ 0) :
    Ruled img reach first seg' (origin ++ ext) q := by
  have hne : ∀ p, val seg p ≠ 0 → p ≠ o := by rintro p hp rfl; exact hp hz
  have hv : ∀ p, val seg' p ≠ 0 → Sooner img p q → val seg p ≠ 0 ∧ p ≠ o := by
    intro p hp hpb
    have : p ≠ o := by rintro rfl; exact hb hpb
    exact ⟨by rw [← hs p this]; exact hp, this⟩
  have hpd : ∀ p, val seg p ≠ 0 → peakDist seg' (origin ++ ext) first p = peakDist seg origin first p := by
    intro p hp
    unfold peakDist
    rw [hs p (hne p hp), hny, List.getD_eq_getElem?_getD, List.getD_eq_getElem?_getD, List.getElem?_append_left (hlab p hp)]
  rcases h with ⟨m, h1, h2, h3⟩ | ⟨q', h1, h2, h3, h4, h5⟩
  · exact Or.inl ⟨m, by simp [h1], h2, fun p hp hpb => h3 p (hv p hp hpb).1 hpb⟩
  · refine Or.inr ⟨q', by rw [hs _ (hne _ h1)]; exact h1, h2, h3, by rw [hs _ (hne _ h1), hs _ (hne _ hq)]; exact h4, fun p hp hpb => ?_⟩
    have hp' := (hv p hp hpb).1
    rw [hpd _ h1, hpd _ hp']
    exact h5 p hp' hpb

/-- what holds before the pixel `ipos` of the list -/
structure DebInv (img : Img (Option K)) (P : DebParams K) (old : DebOut K) (top ipos : Nat) (s : Deb) : Prop where
  segw : s.seg.WF
  segd : s.seg.nx = img.nx ∧ s.seg.ny = img.ny
  visw : s.vis.WF
  visd : s.vis.nx = img.nx ∧ s.vis.ny = img.ny
  ids : s.ids = old.id ++ (List.range s.origin.length).map (P.first + ·)
  id : s.id = P.first + s.origin.length
  py : s.py = old.py ++ s.origin.map fun m => (pos img m).1
  px : s.px = old.px ++ s.origin.map fun m => (pos img m).2
  lab : ∀ q, val s.seg q ≠ 0 → P.first ≤ val s.seg q ∧ val s.seg q - P.first < s.origin.length
  own : ∀ (k m : Nat), s.origin[k]? = some m → m < img.px.length ∧ val s.seg (pos img m) = P.first + k
  vis : ∀ q, val s.vis q = 0 ∨ ipos < val s.vis q
  done : ∀ q, val s.seg q ≠ 0 ↔ (q.1 < img.nx ∧ q.2 < img.ny) ∧ ∃ j, ipos < j ∧ j ≤ top ∧ (sort img.px)[j]? = some (q.1 * img.ny + q.2)
  bright : ∀ q, val s.seg q ≠ 0 → ∃ a, lum img q = some a ∧ P.thr ≤ a
  peak : ∀ q m a, val s.seg q ≠ 0 → s.origin[val s.seg q - P.first]? = some m → lum img q = some a → ∃ b, lum img (pos img m) = some b ∧ a ≤ b
  apart : ∀ (k k' m m' : Nat), k ≠ k' → s.origin[k]? = some m → s.origin[k']? = some m' → P.reach ≤ mdist (pos img m) (pos img m')
  local_ : ∀ q a, val s.seg q ≠ 0 → lum img q = some a → (∃ m ∈ s.origin, pos img m = q) ∨ ∃ q' b, q' ≠ q ∧ mdist q q' < P.reach ∧ lum img q' = some b ∧ a ≤ b
  rule : ∀ q, val s.seg q ≠ 0 → Ruled img P.reach P.first s.seg s.origin q

theorem getElem?_concat {β : Type} (l : List β) (a b : β) (k : Nat) (h : (l ++ [a])[k]? = some b) : l[k]? = some b ∨ (k = l.length ∧ a = b) := by
  by_cases hk : k < l.length
  · rw [List.getElem?_append_left hk] at h
    exact Or.inl h
  · rw [List.getElem?_append_right (by omega)] at h
    by_cases h0 : k = l.length
    · subst h0
      simp only [Nat.sub_self, List.getElem?_cons_zero, Option.some.injEq] at h
      exact Or.inr ⟨rfl, h⟩
    · rw [List.getElem?_eq_none (by simp; omega)] at h
      cases h

theorem debPixel_spec {img : Img (Option K)} {P : DebParams K} {old : DebOut K} {top ipos mid : Nat} {s : Deb} (hw : img.WF) (hf : 0 < P.first)
    (hi : DebInv img P old top (ipos + 1) s) (htop : ipos + 1 ≤ top) (hmid : (sort img.px)[ipos + 1]? = some mid) (a : K) (ha : elt img.px mid = some a) (hthr : P.thr ≤ a) :
    ∃ s', debPixel P (ipos + 1) mid s = .ok s' ∧ DebInv img P old top ipos s' := by
  have hml := sort_get_lt hmid
  set o := pos img mid with ho
  have hor := pos_rng hw hml
  rw [← ho] at hor
  have hseg_o : (mid / s.seg.ny, mid % s.seg.ny) = o := by rw [hi.segd.2]; rfl
  have hlo : lum img o = some a := by rw [ho, lum_pos hw hml, ha]
  have hoflat : o.1 * img.ny + o.2 = mid := pos_flat mid
  have hos : o.1 < s.seg.nx ∧ o.2 < s.seg.ny := by rw [hi.segd.1, hi.segd.2]; exact hor
  have hz : val s.seg o = 0 := by
    by_contra h
    obtain ⟨-, j, h1, -, h3⟩ := (hi.done o).1 h
    rw [hoflat] at h3
    have := sort_get_inj hmid h3
    omega
  -- the order of the pixels done
  have hord : ∀ q, val s.seg q ≠ 0 → ∃ b, lum img q = some b ∧ a ≤ b := by
    intro q hq
    obtain ⟨hr, j, h1, -, h3⟩ := (hi.done q).1 hq
    obtain ⟨b, hb, -⟩ := hi.bright q hq
    refine ⟨b, hb, ?_⟩
    have := sort_get_le (by omega : ipos + 1 < j) hmid h3
    rw [ha, ← lum_flat hr, hb] at this
    simpa using this
  obtain ⟨vis, v1, v2, v3, v4, v5, -⟩ := put_val hi.visw (p := o) (by rw [hi.visd.1, hi.visd.2]; exact hor) (ipos + 1)
  obtain ⟨l, l1, l2, l3, l4, l5, l6⟩ := look_spec (vis := vis) (origin := s.origin) (first := P.first) (cur := ipos + 1) (reach := P.reach) hi.segw v2
    ⟨by rw [v3, hi.visd.1, hi.segd.1], by rw [v4, hi.visd.2, hi.segd.2]⟩ (by omega) hos (fun q hq => (hi.lab q hq).2) (fun q => by
      rw [v5]
      by_cases e : q = o
      · simp [e]
      · rw [if_neg e]
        rcases hi.vis q with h | h
        · simp [h, e]
        · constructor
          · intro h'; omega
          · intro h'; exact absurd h' e)
  have hvis' : ∀ q, val l.w.vis q = 0 ∨ ipos < val l.w.vis q := by
    intro q
    rcases l4 q with h | h
    · right; omega
    · rw [h, v5]
      split
      · right; omega
      · rcases hi.vis q with h | h
        · exact Or.inl h
        · right; omega
  have hvd : l.w.vis.nx = img.nx ∧ l.w.vis.ny = img.ny := ⟨by rw [l3.1, hi.segd.1], by rw [l3.2, hi.segd.2]⟩
  have hdone : ∀ q, (q = o ∨ val s.seg q ≠ 0) ↔ (q.1 < img.nx ∧ q.2 < img.ny) ∧ ∃ j, ipos < j ∧ j ≤ top ∧ (sort img.px)[j]? = some (q.1 * img.ny + q.2) := by
    intro q
    constructor
    · rintro (rfl | h)
      · exact ⟨hor, ipos + 1, by omega, htop, by rw [hoflat]; exact hmid⟩
      · obtain ⟨hr, j, h1, h2, h3⟩ := (hi.done q).1 h
        exact ⟨hr, j, by omega, h2, h3⟩
    · rintro ⟨hr, j, h1, h2, h3⟩
      by_cases hj : j = ipos + 1
      · left
        subst hj
        rw [hmid, Option.some.injEq] at h3
        rw [ho, h3, flat_pos hr.2]
      · right
        exact (hi.done q).2 ⟨hr, j, by omega, h2, h3⟩
  have hbef : ∀ q, val s.seg q ≠ 0 → Sooner img q o ∧ ¬ Sooner img o q := by
    intro q hq
    obtain ⟨hr, j, h1, -, h3⟩ := (hi.done q).1 hq
    refine ⟨⟨ipos + 1, j, h1, by rw [hoflat]; exact hmid, h3⟩, ?_⟩
    rintro ⟨i, j', hij, h4, h5⟩
    rw [hoflat] at h5
    have e1 := sort_get_inj h5 hmid
    have e2 := sort_get_inj h4 h3
    omega
  have hnotself : ¬ Sooner img o o := by
    rintro ⟨i, j, hij, h4, h5⟩
    have := sort_get_inj h4 h5
    omega
  unfold debPixel
  simp only [hseg_o, show mid / s.seg.ny = o.1 from congrArg Prod.fst hseg_o, show mid % s.seg.ny = o.2 from congrArg Prod.snd hseg_o]
  rw [v1, Res.ok_bind, l1, Res.ok_bind]
  by_cases hn : l.neib = 0
  · -- a new segment
    rw [if_neg (by omega)]
    obtain ⟨seg, s1, s2, s3, s4, s5, -⟩ := put_val hi.segw hos s.id
    rw [s1, Res.ok_bind]
    have hidne : s.id ≠ 0 := by rw [hi.id]; omega
    have hsv : ∀ q, val seg q ≠ 0 ↔ q = o ∨ val s.seg q ≠ 0 := by
      intro q
      rw [s5]
      by_cases e : q = o
      · simp [e, hidne]
      · simp [e]
    have hnew := l5 hn
    refine ⟨_, rfl, ⟨s2, ⟨by rw [s3, hi.segd.1], by rw [s4, hi.segd.2]⟩, l2, hvd, ?_, ?_, ?_, ?_, ?_, ?_, hvis', ?_, ?_, ?_, ?_, ?_, ?_⟩⟩
    · simp only [List.length_append, List.length_singleton, List.range_succ, List.map_append, List.map_cons, List.map_nil]
      rw [hi.ids, hi.id, List.append_assoc]
    · simp only [List.length_append, List.length_singleton]; rw [hi.id]; omega
    · simp only [List.map_append, List.map_cons, List.map_nil]
      rw [hi.py, List.append_assoc]
    · simp only [List.map_append, List.map_cons, List.map_nil]
      rw [hi.px, List.append_assoc]
    · intro q hq
      simp only [List.length_append, List.length_singleton]
      rw [s5] at hq ⊢
      by_cases e : q = o
      · rw [if_pos e, hi.id]; omega
      · rw [if_neg e] at hq ⊢
        have := hi.lab q hq
        omega
    · intro k m hk
      simp only at hk
      rcases getElem?_concat _ _ _ _ hk with hk | ⟨hk, rfl⟩
      · have := hi.own k m hk
        refine ⟨this.1, ?_⟩
        rw [s5, if_neg]
        · exact this.2
        · intro e
          have h2 := this.2
          rw [e, hz] at h2
          omega
      · refine ⟨hml, ?_⟩
        rw [s5, ← ho, if_pos rfl, hi.id]; omega
    · intro q
      rw [hsv]; exact hdone q
    · intro q hq
      rcases (hsv q).1 hq with rfl | h
      · exact ⟨a, hlo, hthr⟩
      · exact hi.bright q h
    · intro q m b hq hm hb
      simp only at hm
      rw [s5] at hm
      by_cases e : q = o
      · rw [if_pos e, hi.id, Nat.add_sub_cancel_left, List.getElem?_append_right (Nat.le_refl _), Nat.sub_self, List.getElem?_cons_zero, Option.some.injEq] at hm
        subst hm
        rw [e] at hb
        exact ⟨b, by rw [← ho]; exact hb, le_refl _⟩
      · rw [if_neg e] at hm
        have hq' : val s.seg q ≠ 0 := by rcases (hsv q).1 hq with h | h; exact absurd h e; exact h
        rw [List.getElem?_append_left (hi.lab q hq').2] at hm
        exact hi.peak q m b hq' hm hb
    · intro k k' m m' hkk hk hk'
      simp only at hk hk'
      have hsep : ∀ (j n : Nat), s.origin[j]? = some n → P.reach ≤ mdist o (pos img n) := by
        intro j n hj
        by_contra hlt
        have := hnew (pos img n) (by omega)
        rw [(hi.own j n hj).2] at this
        omega
      rcases getElem?_concat _ _ _ _ hk with hk | ⟨hk, rfl⟩
      · rcases getElem?_concat _ _ _ _ hk' with hk' | ⟨hk', rfl⟩
        · exact hi.apart k k' m m' hkk hk hk'
        · rw [mdist_comm]; exact hsep k m hk
      · rcases getElem?_concat _ _ _ _ hk' with hk' | ⟨hk', rfl⟩
        · exact hsep k' m' hk'
        · omega
    · intro q b hq hb
      rcases (hsv q).1 hq with rfl | h
      · exact Or.inl ⟨mid, by simp, rfl⟩
      · rcases hi.local_ q b h hb with ⟨m, h1, h2⟩ | h1
        · exact Or.inl ⟨m, by simp [h1], h2⟩
        · exact Or.inr h1
    · intro q hq
      have hs' : ∀ q, q ≠ o → val seg q = val s.seg q := fun q e => by rw [s5, if_neg e]
      rcases (hsv q).1 hq with rfl | h
      · refine Or.inl ⟨mid, by simp, rfl, fun p hp hpb => ?_⟩
        by_contra hlt
        have hpo : p ≠ o := by intro e; rw [e] at hpb; exact hnotself hpb
        simp only at hp
        rw [hs' p hpo] at hp
        exact hp (hnew p (by omega))
      · exact (hi.rule q h).grow hs' s4 (fun q hq => (hi.lab q hq).2) (hbef q h).2 hz h
  · -- given to another segment
    rw [if_pos (by omega)]
    obtain ⟨q0, hfound, hq0⟩ := l6 hn
    obtain ⟨seg, s1, s2, s3, s4, s5, -⟩ := put_val hi.segw hos l.neib
    rw [s1, Res.ok_bind]
    have hsv : ∀ q, val seg q ≠ 0 ↔ q = o ∨ val s.seg q ≠ 0 := by
      intro q
      rw [s5]
      by_cases e : q = o
      · simp [e, hn]
      · simp [e]
    have hne : q0 ≠ o := by rintro rfl; exact hfound.lab hz
    refine ⟨_, rfl, ⟨s2, ⟨by rw [s3, hi.segd.1], by rw [s4, hi.segd.2]⟩, l2, hvd, hi.ids, hi.id, hi.py, hi.px, ?_, ?_, hvis', ?_, ?_, ?_, hi.apart, ?_, ?_⟩⟩
    · intro q hq
      simp only
      rw [s5] at hq ⊢
      by_cases e : q = o
      · rw [if_pos e, hq0]; exact hi.lab q0 hfound.lab
      · rw [if_neg e] at hq ⊢
        exact hi.lab q hq
    · intro k m hk
      have := hi.own k m hk
      refine ⟨this.1, ?_⟩
      simp only
      rw [s5, if_neg]
      · exact this.2
      · intro e
        have h2 := this.2
        rw [e, hz] at h2
        omega
    · intro q
      rw [hsv]; exact hdone q
    · intro q hq
      rcases (hsv q).1 hq with rfl | h
      · exact ⟨a, hlo, hthr⟩
      · exact hi.bright q h
    · intro q m b hq hm hb
      simp only at hm
      rw [s5] at hm
      by_cases e : q = o
      · rw [if_pos e, hq0] at hm
        rw [e, hlo, Option.some.injEq] at hb
        subst hb
        obtain ⟨c, hc, hac⟩ := hord q0 hfound.lab
        obtain ⟨d, hd, hcd⟩ := hi.peak q0 m c hfound.lab hm hc
        exact ⟨d, hd, le_trans hac hcd⟩
      · rw [if_neg e] at hm
        have hq' : val s.seg q ≠ 0 := by rcases (hsv q).1 hq with h | h; exact absurd h e; exact h
        exact hi.peak q m b hq' hm hb
    · intro q b hq hb
      rcases (hsv q).1 hq with rfl | h
      · right
        obtain ⟨c, hc, hac⟩ := hord q0 hfound.lab
        rw [hlo, Option.some.injEq] at hb
        exact ⟨q0, c, hne, hfound.near, hc, by rw [← hb]; exact hac⟩
      · exact hi.local_ q b h hb
    · intro q hq
      have hs' : ∀ q, q ≠ o → val seg q = val s.seg q := fun q e => by rw [s5, if_neg e]
      have hgrow : ∀ p, val s.seg p ≠ 0 → peakDist seg s.origin P.first p = peakDist s.seg s.origin P.first p := by
        intro p hp
        have hpo : p ≠ o := by intro e; rw [e] at hp; exact hp hz
        unfold peakDist
        rw [hs' p hpo, s4]
      rcases (hsv q).1 hq with rfl | h
      · refine Or.inr ⟨q0, ?_, (hbef q0 hfound.lab).1, hfound.near, ?_, fun p hp hpb => ?_⟩
        · simp only; rw [hs' q0 hne]; exact hfound.lab
        · simp only; rw [hs' q0 hne, s5, if_pos rfl, hq0]
        · have hpo : p ≠ o := by intro e; rw [e] at hpb; exact hnotself hpb
          simp only at hp
          rw [hs' p hpo] at hp
          simp only
          rw [hgrow _ hfound.lab, hgrow _ hp]
          exact ⟨hfound.first_ p hp, hfound.best p hp⟩
      · have := (hi.rule q h).grow (ext := []) hs' s4 (fun q hq => (hi.lab q hq).2) (hbef q h).2 hz h
        simpa using this

theorem chk_some {β : Type} {l : List β} {i : Nat} {a : β} (h : l[i]? = some a) : chk l i = .ok a := by unfold chk; rw [h]

theorem geO_iff {a : Option K} {t : K} : geO a (some t) = true ↔ ∃ b, a = some b ∧ t ≤ b := by
  cases a <;> simp [geO]

theorem debLoop_spec {img : Img (Option K)} {P : DebParams K} {old : DebOut K} {top : Nat} (hw : img.WF) (hf : 0 < P.first) (htop : top < img.px.length) :
    ∀ (ipos : Nat) (s : Deb), ipos ≤ top → DebInv img P old top ipos s → ∃ s' e, debLoop P img (sort img.px) ipos s = .ok s' ∧ DebInv img P old top e s' ∧ e ≤ ipos ∧
      (e = 0 ∨ ∃ m, (sort img.px)[e]? = some m ∧ ¬ ∃ b, elt img.px m = some b ∧ P.thr ≤ b)
  | 0, s, _, hi => ⟨s, 0, rfl, hi, Nat.le_refl _, Or.inl rfl⟩
  | ipos + 1, s, hle, hi => by
    have hlen : (sort img.px).length = img.px.length := by rw [(sort_perm img.px).length_eq, List.length_range]
    have hlt : ipos + 1 < (sort img.px).length := by omega
    obtain ⟨mid, hmid⟩ : ∃ mid, (sort img.px)[ipos + 1]? = some mid := ⟨_, List.getElem?_eq_getElem hlt⟩
    have hml := sort_get_lt hmid
    have hv : img.px[mid]? = some (elt img.px mid) := by
      rw [elt, List.getD_eq_getElem?_getD, List.getElem?_eq_getElem hml, Option.getD_some]
    unfold debLoop
    rw [chk_some hmid, Res.ok_bind, chk_some hv, Res.ok_bind]
    by_cases hg : geO (elt img.px mid) (some P.thr) = true
    · rw [if_pos hg]
      obtain ⟨a, ha, hthr⟩ := geO_iff.1 hg
      obtain ⟨s1, e1, h1⟩ := debPixel_spec hw hf hi hle hmid a ha hthr
      rw [e1, Res.ok_bind]
      obtain ⟨s2, e, g1, g2, g3, g4⟩ := debLoop_spec hw hf htop ipos s1 (by omega) h1
      exact ⟨s2, e, g1, g2, by omega, g4⟩
    · rw [if_neg hg]
      exact ⟨s, ipos + 1, rfl, hi, Nat.le_refl _, Or.inr ⟨mid, hmid, fun h => hg (geO_iff.2 h)⟩⟩

omit [LinearOrder K] in
theorem lastFinite_spec {img : Img (Option K)} {sid : List Nat} (hs : ∀ m ∈ sid, m < img.px.length) : ∀ n, n < sid.length → ∃ top, lastFinite img sid n = .ok top ∧ top ≤ n ∧
    (top = 0 ∨ ∃ m a, sid[top]? = some m ∧ elt img.px m = some a) ∧ ∀ j m, top < j → j ≤ n → sid[j]? = some m → elt img.px m = none
  | 0, _ => ⟨0, rfl, Nat.le_refl _, Or.inl rfl, fun j m h1 h2 => by omega⟩
  | n + 1, h => by
    have hm : sid[n + 1]? = some sid[n + 1] := List.getElem?_eq_getElem h
    have hml := hs _ (List.getElem_mem h)
    have hv : img.px[sid[n + 1]]? = some (elt img.px sid[n + 1]) := by
      rw [elt, List.getD_eq_getElem?_getD, List.getElem?_eq_getElem hml, Option.getD_some]
    unfold lastFinite
    rw [Res.rd_eq_ok.2 hm, Res.ok_bind, Res.rd_eq_ok.2 hv, Res.ok_bind]
    cases hc : elt img.px sid[n + 1] with
    | some a => exact ⟨n + 1, rfl, Nat.le_refl _, Or.inr ⟨_, a, hm, hc⟩, fun j m h1 h2 => by omega⟩
    | none =>
      obtain ⟨top, h1, h2, h4, h3⟩ := lastFinite_spec hs n (by omega)
      refine ⟨top, h1, by omega, h4, fun j m hj1 hj2 hj => ?_⟩
      by_cases e : j = n + 1
      · subst e
        rw [hm, Option.some.injEq] at hj
        rw [← hj]; exact hc
      · exact h3 j m hj1 (by omega) hj

theorem ginv_init (img : Img (Option K)) (P : DebParams K) (old : DebOut K) (top : Nat) :
    DebInv img P old top top ⟨Img.fill img.nx img.ny 0, Img.fill img.nx img.ny 0, old.id, [], old.py, old.px, P.first⟩ where
  segw := fill_wf _ _ _
  segd := ⟨rfl, rfl⟩
  visw := fill_wf _ _ _
  visd := ⟨rfl, rfl⟩
  ids := by simp
  id := rfl
  py := by simp
  px := by simp
  lab q h := absurd (val_fill _ _ q) h
  own k m h := by simp at h
  vis q := Or.inl (val_fill _ _ q)
  done q := by
    constructor
    · intro h; exact absurd (val_fill _ _ q) h
    · rintro ⟨-, j, h1, h2, -⟩; omega
  bright q h := absurd (val_fill _ _ q) h
  peak q m a h := absurd (val_fill _ _ q) h
  rule q h := absurd (val_fill _ _ q) h
  apart k k' m m' _ h := by simp at h
  local_ q a h := absurd (val_fill _ _ q) h

/-- the first part: the loop ends, and all finite pixels above the threshold have a segment, but the first one of the order -/
theorem grow_spec {img : Img (Option K)} {P : DebParams K} (old : DebOut K) (hw : img.WF) (hf : 0 < P.first) (hne : img.px ≠ []) :
    ∃ top e d, lastFinite img (sort img.px) ((sort img.px).length - 1) = .ok top ∧
      debLoop P img (sort img.px) top ⟨Img.fill img.nx img.ny 0, Img.fill img.nx img.ny 0, old.id, [], old.py, old.px, P.first⟩ = .ok d ∧ DebInv img P old top e d ∧
      ∀ q a, lum img q = some a → P.thr ≤ a → (sort img.px)[0]? ≠ some (q.1 * img.ny + q.2) → val d.seg q ≠ 0 := by
  have hlen : (sort img.px).length = img.px.length := by rw [(sort_perm img.px).length_eq, List.length_range]
  have hpos : 0 < img.px.length := List.length_pos_iff.2 hne
  obtain ⟨top, h1, h2, h5, h3⟩ := lastFinite_spec (img := img) (fun m hm => (sort_lt img.px m).1 hm) ((sort img.px).length - 1) (by omega)
  obtain ⟨d, e, g1, g2, g3, g4⟩ := debLoop_spec (P := P) (old := old) hw hf (by omega : top < img.px.length) top _ (Nat.le_refl _) (ginv_init img P old top)
  refine ⟨top, e, d, h1, g1, g2, fun q a hq ha h0 => ?_⟩
  have hr : q.1 < img.nx ∧ q.2 < img.ny := by
    by_contra hc
    unfold lum at hq
    rw [at_none hc] at hq
    cases hq
  have hfl : q.1 * img.ny + q.2 < img.px.length := by rw [hw]; exact flat_lt hr.1 hr.2
  obtain ⟨j, hjl, hj⟩ := List.getElem_of_mem ((sort_lt img.px _).2 hfl)
  have hj' : (sort img.px)[j]? = some (q.1 * img.ny + q.2) := by rw [List.getElem?_eq_getElem hjl, hj]
  have hqe : elt img.px (q.1 * img.ny + q.2) = some a := by rw [← lum_flat hr]; exact hq
  refine (g2.done q).2 ⟨hr, j, ?_, ?_, hj'⟩
  · by_contra hle
    rcases g4 with rfl | ⟨m, hm, hnb⟩
    · have : j = 0 := by omega
      subst this
      exact h0 hj'
    · apply hnb
      by_cases e' : j = e
      · subst e'
        rw [hm, Option.some.injEq] at hj'
        rw [hj']
        exact ⟨a, hqe, ha⟩
      · have := sort_get_le (by omega : j < e) hj' hm
        rw [hqe] at this
        cases hb : elt img.px m with
        | some b =>
          rw [hb] at this
          exact ⟨b, rfl, le_trans ha (by simpa using this)⟩
        | none =>
          -- the pixels up to `top` are finite, or `top` is zero
          exfalso
          rcases h5 with h | ⟨m', c, hm', hc⟩
          · omega
          · by_cases e'' : e = top
            · subst e''
              rw [hm, Option.some.injEq] at hm'
              rw [← hm', hb] at hc
              cases hc
            · have := sort_get_le (by omega : e < top) hm hm'
              rw [hb, hc] at this
              simp [FP.le, FP.less] at this
  · by_contra hgt
    have := h3 j _ (by omega) (by omega) hj'
    rw [hqe] at this
    cases this

end Verif.Astro
