import Verif.Astro.DeblendIsl
import Mathlib.Algebra.Field.Rat
import Mathlib.Algebra.Order.Ring.Unbundled.Rat
/-!
# C136, C137: the segments of `segment_deblend`

`lum img q` is the value of pixel `q`, if it is finite, `val seg q` its label (0 outside of the map), `mdist` the number of steps between two pixels,
`Linked seg o q` says that a path goes from `o` to `q` through pixels with the label of `o`.
-/
namespace Verif.Astro
open Verif Verif.Find

variable {K : Type} [Field K] [LinearOrder K]

/-- the parameters with another minimum area -/
def withArea (P : DebParams K) (a : Nat) : DebParams K := { P with minArea := a }

/-- the third part -/
def debFinish (img : Img (Option K)) (P : DebParams K) (d : Deb) (x : Isl K) : Res (Img Nat × DebOut K) :=
  if x.area.any (fun a => decide (a < P.minArea)) then do
    let y ← (List.range d.ids.length).foldlM (smallSegment img P d.ids d.origin) ({ x with vis := Img.fill img.nx img.ny 0 }, [])
    let f := fun {β : Type} (l : List β) => dropIds l y.2
    .ok (y.1.seg, ⟨f d.ids, f y.1.area, List.zipWith divO (f y.1.by_) (f y.1.fc), List.zipWith divO (f y.1.bx) (f y.1.fc), f d.py, f d.px, f d.origin, f y.1.flux⟩)
  else .ok (x.seg, ⟨d.ids, x.area, List.zipWith divO x.by_ x.fc, List.zipWith divO x.bx x.fc, d.py, d.px, d.origin, x.flux⟩)

theorem deblend_core {img : Img (Option K)} {P : DebParams K} (hw : img.WF) (hf : 0 < P.first) (hne : img.px ≠ []) :
    ∃ top e d x, DebInv img P {} top e d ∧ IInv img P d.seg d.origin d.origin.length x ∧
      (∀ q a, lum img q = some a → P.thr ≤ a → (sort img.px)[0]? ≠ some (q.1 * img.ny + q.2) → val d.seg q ≠ 0) ∧
      ∀ a, segmentDeblend img {} (withArea P a) = debFinish img (withArea P a) d x := by
  obtain ⟨top, e, d, h1, h2, h3, h4⟩ := grow_spec (P := P) {} hw hf hne
  obtain ⟨x, g1, g2⟩ := isl_spec hw hf h3 rfl
  refine ⟨top, e, d, x, h3, g2, h4, fun a => ?_⟩
  have hlen : (sort img.px).length = img.px.length := by rw [(sort_perm img.px).length_eq, List.length_range]
  have hs : sort img.px ≠ [] := by
    intro h
    rw [h] at hlen
    exact hne (List.length_eq_zero_iff.1 hlen.symm)
  have hn : d.ids.length = d.origin.length := by rw [h3.ids]; simp
  have hP : ∀ n s, debLoop (withArea P a) img (sort img.px) n s = debLoop P img (sort img.px) n s := by
    intro n
    induction n with
    | zero => intro s; rfl
    | succ n ih =>
      intro s
      unfold debLoop
      simp only [ih]
      rfl
  unfold segmentDeblend deblendSorted
  rw [Res.check_pos (by exact hf), Res.ok_bind]
  simp only
  rw [if_neg hs, h1, Res.ok_bind, hP, show (withArea P a).first = P.first from rfl, h2, Res.ok_bind]
  simp only [resizeTo_nil, hn]
  rw [show islSegment img (withArea P a) d.seg d.ids d.origin = islSegment img P d.seg d.ids d.origin from rfl, g1, Res.ok_bind]
  unfold debFinish
  rw [hn]

omit [Field K] in
theorem sooner_lum {img : Img (Option K)} {p q : Nat × Nat} (hp : p.1 < img.nx ∧ p.2 < img.ny) (hq : q.1 < img.nx ∧ q.2 < img.ny) (h : Sooner img p q) {a b : K}
    (ha : lum img p = some a) (hb : lum img q = some b) : b ≤ a := by
  obtain ⟨i, j, hij, h1, h2⟩ := h
  have := sort_get_le hij h1 h2
  rw [← lum_flat hp, ← lum_flat hq, ha, hb] at this
  simpa using this

/-- the pixels that stay in the segment of their peak -/
theorem kept_linked {img : Img (Option K)} {P : DebParams K} {old : DebOut K} {top e : Nat} {d : Deb} {x : Isl K} (hd : DebInv img P old top e d) (hf : 0 < P.first)
    (hi : IInv img P d.seg d.origin d.origin.length x) {k m : Nat} (hk : d.origin[k]? = some m) (q : Nat × Nat) :
    (val x.seg q = P.first + k ↔ Linked d.seg (pos img m) q) ∧ (Linked d.seg (pos img m) q → Linked x.seg (pos img m) q) := by
  obtain ⟨hml, hmv⟩ := hd.own k m hk
  have hkl : k < d.origin.length := (List.getElem?_eq_some_iff.1 hk).1
  have hkept : ∀ q, Linked d.seg (pos img m) q → val x.seg q = P.first + k := by
    intro q hl
    have hv := hl.val
    rw [hmv] at hv
    rw [hi.yes q ⟨by omega, m, by rw [hv, Nat.add_sub_cancel_left]; exact hk, hl⟩ (by omega), hv]
  refine ⟨⟨fun h => ?_, hkept q⟩, fun h => ?_⟩
  · by_cases hkq : Kept img P.first d.seg d.origin q ∧ val d.seg q < P.first + d.origin.length
    · rw [hi.yes q hkq.1 hkq.2] at h
      obtain ⟨-, m', hm', hl⟩ := hkq.1
      rw [h, Nat.add_sub_cancel_left, hk, Option.some.injEq] at hm'
      rw [hm']; exact hl
    · rw [hi.no q hkq] at h; omega
  · have ho := hkept _ (Relation.ReflTransGen.refl)
    unfold Linked
    induction h with
    | refl => exact .refl
    | @tail b c h1 h2 ih => exact ih.tail ⟨h2.1, by rw [hkept c (h1.tail h2), ho]⟩

theorem area_pos {img : Img (Option K)} {P : DebParams K} {old : DebOut K} {top e : Nat} {d : Deb} {x : Isl K} (hd : DebInv img P old top e d)
    (hi : IInv img P d.seg d.origin d.origin.length x) (hma : P.minArea ≤ 1) : debFinish img P d x =
      .ok (x.seg, ⟨d.ids, x.area, List.zipWith divO x.by_ x.fc, List.zipWith divO x.bx x.fc, d.py, d.px, d.origin, x.flux⟩) := by
  unfold debFinish
  rw [if_neg]
  intro h
  obtain ⟨a, ha, hlt⟩ := List.any_eq_true.1 h
  simp only [decide_eq_true_eq] at hlt
  obtain ⟨j, hj, he⟩ := List.getElem_of_mem ha
  obtain ⟨m, R, area, flux, by_, bx, fc, h1, h2, h3, h4, h5, h6, h7, h8, h9, h10⟩ := (hi.meas j (by rw [← hi.len.1]; exact hj)).ex
  rw [List.getElem?_eq_getElem hj, he, Option.some.injEq] at h5
  have := h10.area
  rw [h5, this, List.length_cons] at hlt
  omega

/-- **C136** With the default minimum area (or 1), on an image that is not empty: the segments are numbered in order from `first_id`, each has the label of its
index at its peak, `py`, `px` are the coordinates of the peaks; the pixels of a segment are connected to its peak, finite, at least equal to the
threshold and not brighter than the peak. -/
theorem C136_segments {img : Img (Option K)} {P : DebParams K} (hw : img.WF) (hf : 0 < P.first) (hne : img.px ≠ []) (hma : P.minArea ≤ 1) :
    ∃ seg out, segmentDeblend img {} P = .ok (seg, out) ∧ seg.WF ∧ (seg.nx = img.nx ∧ seg.ny = img.ny) ∧
      out.id = (List.range out.origin.length).map (P.first + ·) ∧ out.py = out.origin.map (fun m => (pos img m).1) ∧ out.px = out.origin.map (fun m => (pos img m).2) ∧
      (∀ q, val seg q ≠ 0 → val seg q ∈ out.id) ∧
      (∀ (k m : Nat), out.origin[k]? = some m → m < img.px.length ∧ val seg (pos img m) = P.first + k) ∧
      ∀ (q : Nat × Nat) (k m : Nat), val seg q = P.first + k → out.origin[k]? = some m → Linked seg (pos img m) q ∧
        ∃ a b, lum img q = some a ∧ lum img (pos img m) = some b ∧ P.thr ≤ a ∧ a ≤ b := by
  obtain ⟨top, e, d, x, hd, hi, hall, hres⟩ := deblend_core (P := P) hw hf hne
  refine ⟨_, _, (hres P.minArea).trans (area_pos (P := P) hd hi hma), hi.segw, hi.segd, ?_, ?_, ?_, ?_, ?_, ?_⟩
  · have := hd.ids; simpa using this
  · have := hd.py; simpa using this
  · have := hd.px; simpa using this
  · intro q hq
    simp only
    by_cases hkq : Kept img P.first d.seg d.origin q ∧ val d.seg q < P.first + d.origin.length
    · rw [hi.yes q hkq.1 hkq.2, hd.ids]
      have := hd.lab q hkq.1.1
      simp only [List.nil_append, List.mem_map, List.mem_range]
      exact ⟨val d.seg q - P.first, this.2, by omega⟩
    · exact absurd (hi.no q hkq) hq
  · intro k m hk
    exact ⟨(hd.own k m hk).1, ((kept_linked hd hf hi hk _).1).2 .refl⟩
  · intro q k m hq hk
    have hl := ((kept_linked hd hf hi hk q).1).1 hq
    have hv := hl.val
    rw [(hd.own k m hk).2] at hv
    refine ⟨(kept_linked hd hf hi hk q).2 hl, ?_⟩
    obtain ⟨a, ha, hthr⟩ := hd.bright q (by omega)
    obtain ⟨b, hb, hab⟩ := hd.peak q m a (by omega) (by rw [hv, Nat.add_sub_cancel_left]; exact hk) ha
    exact ⟨a, b, ha, hb, hthr, hab⟩

/-- **C136** Peaks: two of them are at least `deblend_threshold` steps apart; a pixel at least equal to the threshold, brighter than all the others at less than `deblend_threshold` steps,
is a peak, unless it comes last in the order of the values. -/
theorem C136_peaks {img : Img (Option K)} {P : DebParams K} {seg : Img Nat} {out : DebOut K} (hw : img.WF) (hf : 0 < P.first) (hne : img.px ≠ []) (hma : P.minArea ≤ 1)
    (h : segmentDeblend img {} P = .ok (seg, out)) :
    (∀ (k k' m m' : Nat), k ≠ k' → out.origin[k]? = some m → out.origin[k']? = some m' → P.reach ≤ mdist (pos img m) (pos img m')) ∧
      ∀ q a, lum img q = some a → P.thr ≤ a → (sort img.px)[0]? ≠ some (q.1 * img.ny + q.2) → (∀ q' b, q' ≠ q → mdist q q' < P.reach → lum img q' = some b → b < a) →
        ∃ m ∈ out.origin, pos img m = q := by
  obtain ⟨top, e, d, x, hd, hi, hall, hres⟩ := deblend_core (P := P) hw hf hne
  have := h.symm.trans ((hres P.minArea).trans (area_pos (P := P) hd hi hma))
  rw [Res.ok.injEq, Prod.mk.injEq] at this
  obtain ⟨rfl, rfl⟩ := this
  refine ⟨hd.apart, fun q a ha hthr h0 hmax => ?_⟩
  rcases hd.local_ q a (hall q a ha hthr h0) ha with h | ⟨q', b, h1, h2, h3, h4⟩
  · exact h
  · exact absurd h4 (not_le.2 (hmax q' b h1 h2 h3))

/-- **C136** The rule: there is a map `full` that labels all the finite pixels at least equal to the threshold, but the last one in the order of the values.
In this map a pixel is a peak if all the pixels before it are at least `deblend_threshold` steps away, and has otherwise the label of one of the nearest pixels before
it, among these the closest to its peak. The result is `full` without the pixels that are not connected to the peak of their segment. -/
theorem C136_rule {img : Img (Option K)} {P : DebParams K} {seg : Img Nat} {out : DebOut K} (hw : img.WF) (hf : 0 < P.first) (hne : img.px ≠ []) (hma : P.minArea ≤ 1)
    (h : segmentDeblend img {} P = .ok (seg, out)) :
    ∃ full : Img Nat, full.WF ∧ (full.nx = img.nx ∧ full.ny = img.ny) ∧
      (∀ q, val full q ≠ 0 ↔ (∃ a, lum img q = some a ∧ P.thr ≤ a) ∧ (sort img.px)[0]? ≠ some (q.1 * img.ny + q.2)) ∧
      (∀ q, val full q ≠ 0 → ∃ k, val full q = P.first + k ∧ k < out.origin.length) ∧
      (∀ (k m : Nat), out.origin[k]? = some m → val full (pos img m) = P.first + k) ∧
      (∀ q, val full q ≠ 0 → Ruled img P.reach P.first full out.origin q) ∧
      (∀ (q : Nat × Nat) (k m : Nat), out.origin[k]? = some m → (val seg q = P.first + k ↔ Linked full (pos img m) q)) ∧
      ∀ q, val seg q = 0 ∨ val seg q = val full q := by
  obtain ⟨top, e, d, x, hd, hi, hall, hres⟩ := deblend_core (P := P) hw hf hne
  have := h.symm.trans ((hres P.minArea).trans (area_pos (P := P) hd hi hma))
  rw [Res.ok.injEq, Prod.mk.injEq] at this
  obtain ⟨rfl, rfl⟩ := this
  refine ⟨d.seg, hd.segw, hd.segd, fun q => ⟨fun hq => ⟨hd.bright q hq, fun h0 => ?_⟩, fun ⟨⟨a, ha, hthr⟩, h0⟩ => hall q a ha hthr h0⟩, fun q hq => ?_, fun k m hk => (hd.own k m hk).2, hd.rule,
    fun q k m hk => (kept_linked hd hf hi hk q).1, fun q => ?_⟩
  · obtain ⟨-, j, h1, -, h3⟩ := (hd.done q).1 hq
    have := sort_get_inj h0 h3
    omega
  · have := hd.lab q hq
    exact ⟨val d.seg q - P.first, by omega, this.2⟩
  · by_cases hkq : Kept img P.first d.seg d.origin q ∧ val d.seg q < P.first + d.origin.length
    · exact Or.inr (hi.yes q hkq.1 hkq.2)
    · exact Or.inl (hi.no q hkq)

/-- **C136** When `deblend_threshold` is at most 2, no pixel is lost: all the finite pixels at least equal to the threshold are in a segment, but the last one. -/
theorem C136_all {img : Img (Option K)} {P : DebParams K} {seg : Img Nat} {out : DebOut K} (hw : img.WF) (hf : 0 < P.first) (hne : img.px ≠ []) (hma : P.minArea ≤ 1)
    (h : segmentDeblend img {} P = .ok (seg, out)) (hr : P.reach ≤ 2) (q : Nat × Nat) :
    val seg q ≠ 0 ↔ (∃ a, lum img q = some a ∧ P.thr ≤ a) ∧ (sort img.px)[0]? ≠ some (q.1 * img.ny + q.2) := by
  obtain ⟨full, f1, f2, f3, f4, f5, f6, f7, f8⟩ := C136_rule hw hf hne hma h
  rw [← f3]
  constructor
  · intro hq
    rcases f8 q with e | e
    · exact absurd e hq
    · rw [← e]; exact hq
  · intro hq
    have hlink : ∀ (n j : Nat) (q : Nat × Nat) (k m : Nat), (sort img.px).length ≤ j + n → (sort img.px)[j]? = some (q.1 * img.ny + q.2) → val full q = P.first + k → out.origin[k]? = some m →
        Linked full (pos img m) q := by
      intro n
      induction n with
      | zero =>
        intro j q k m hj hs
        rw [List.getElem?_eq_none (by omega)] at hs
        cases hs
      | succ n ih =>
        intro j q k m hj hs hv hk
        rcases f6 q (by omega) with ⟨m', h1, h2, -⟩ | ⟨q', h1, ⟨i, j', hij, h5, h6⟩, h3, h4, -⟩
        · obtain ⟨k', hk'⟩ := List.getElem?_of_mem h1
          have := f5 k' m' hk'
          rw [h2, hv] at this
          have : k = k' := by omega
          subst this
          rw [hk, Option.some.injEq] at hk'
          rw [hk', h2]
          exact .refl
        · have e1 := sort_get_inj hs h5
          have hl := ih j' q' k m (by omega) h6 (by rw [← h4]; exact hv) hk
          refine hl.tail ⟨?_, by rw [hv, f5 k m hk]⟩
          have hd0 : mdist q q' ≠ 0 := by
            intro h0
            have := mdist_eq_zero h0
            subst this
            have := sort_get_inj h5 h6
            omega
          have hd1 : mdist q q' = 1 := by omega
          unfold mdist at hd1
          unfold Adj
          omega
    obtain ⟨k, hk, hkl⟩ := f4 q hq
    obtain ⟨m, hm⟩ : ∃ m, out.origin[k]? = some m := ⟨_, List.getElem?_eq_getElem hkl⟩
    have hfq := (f3 q).1 hq
    have hrng : q.1 < img.nx ∧ q.2 < img.ny := by
      have := val_ne hq
      rw [f2.1, f2.2] at this
      exact this
    obtain ⟨j, hjl, hj⟩ := List.getElem_of_mem ((sort_lt img.px (q.1 * img.ny + q.2)).2 (by rw [hw]; exact flat_lt hrng.1 hrng.2))
    rw [(f7 q k m hm).2 (hlink _ j q k m (Nat.le_add_left _ _) (by rw [List.getElem?_eq_getElem hjl, hj]) hk hm)]
    omega

/-- **C137** Measurements: for a list of the pixels of the segment, without repetition, the area and the flux are those of the list with the peak counted twice
(unless it is alone), the barycentre is that of the pixels of this list at least equal to `centroid_flim` times the peak (undefined if their total is zero). -/
theorem C137_measures {img : Img (Option K)} {P : DebParams K} {seg : Img Nat} {out : DebOut K} (hw : img.WF) (hf : 0 < P.first) (hne : img.px ≠ []) (hma : P.minArea ≤ 1)
    (h : segmentDeblend img {} P = .ok (seg, out)) (k m : Nat) (hk : out.origin[k]? = some m) (L : List (Nat × Nat)) (hL : L.Nodup) (hmem : ∀ q, q ∈ L ↔ val seg q = P.first + k) :
    let T := twice (pos img m) L
    let B := T.filter fun p => decide (P.flim * lumK img (pos img m) ≤ lumK img p)
    let S := (B.map (lumK img)).sum
    out.area[k]? = some T.length ∧ out.flux[k]? = some (some (T.map (lumK img)).sum) ∧
      out.by_[k]? = some (if S = 0 then none else some ((B.map fun p => (p.1 : K) * lumK img p).sum / S)) ∧
      out.bx[k]? = some (if S = 0 then none else some ((B.map fun p => (p.2 : K) * lumK img p).sum / S)) := by
  obtain ⟨top, e, d, x, hd, hi, hall, hres⟩ := deblend_core (P := P) hw hf hne
  have := h.symm.trans ((hres P.minArea).trans (area_pos (P := P) hd hi hma))
  rw [Res.ok.injEq, Prod.mk.injEq] at this
  obtain ⟨rfl, rfl⟩ := this
  simp only at hk
  obtain ⟨m', R, area, flux, by_, bx, fc, h1, h2, h3, h4, h5, h6, h7, h8, h9, h10⟩ := (hi.meas k (List.getElem?_eq_some_iff.1 hk).1).ex
  rw [hk, Option.some.injEq] at h1
  subst h1
  have hp := twice_perm h2 h4 hL (fun q => by rw [hmem, h3]; exact (kept_linked hd hf hi hk q).1)
  have hM := h10.perm hp
  refine ⟨by simp only; rw [h5, hM.area], by simp only; rw [h6, hM.flux], ?_, ?_⟩
  · simp only [List.getElem?_zipWith, h7, h9, hM.by_, hM.fc]
    rfl
  · simp only [List.getElem?_zipWith, h8, h9, hM.bx, hM.fc]
    rfl

/-- two peaks: 9 and 7, with 3 between them and an isolated 4 -/
def twoPeaks : Img (Option ℚ) := ⟨2, 6, [some 9, some 3, some 5, some 7, some 0, some 4, some 0, some 0, some 0, some 0, none, some 0]⟩
def twoPar : DebParams ℚ := ⟨2, 3, 0, 1, 0⟩

theorem two_sort : sort twoPeaks.px = [4, 6, 7, 8, 9, 11, 1, 5, 2, 3, 0, 10] := by
  symm; apply C14_sort_unique <;> decide +kernel

/-- the hypotheses are met and the segments are not trivial: 9, 3 and 5, 7; the pixel 4 is two steps from 7, but not connected -/
theorem two_deblend : segmentDeblend twoPeaks {} twoPar = .ok (⟨2, 6, [1, 1, 2, 2, 0, 0, 0, 0, 0, 0, 0, 0]⟩,
    ⟨[1, 2], [3, 3], [some 0, some 0], [some (3 / 21), some (52 / 19)], [0, 0], [0, 3], [0, 3], [some 21, some 19]⟩) := by
  unfold segmentDeblend; rw [two_sort]; decide +kernel
example : twoPeaks.WF ∧ 0 < twoPar.first ∧ twoPeaks.px ≠ [] ∧ twoPar.minArea ≤ 1 := by decide +kernel

/-- **C136 refuted** (every pixel above the threshold that is connected to the peaks is in a segment): the last pixel in the order of the values never is, so that an image with
one bright pixel has no segment. -/
theorem C136_last_refuted : segmentDeblend (⟨1, 1, [some 9]⟩ : Img (Option ℚ)) {} twoPar = .ok (⟨1, 1, [0]⟩, {}) ∧
    segmentDeblend (⟨1, 2, [some 9, some 8]⟩ : Img (Option ℚ)) {} twoPar = .ok (⟨1, 2, [1, 0]⟩, ⟨[1], [1], [some 0], [some 0], [0], [0], [0], [some 9]⟩) := by
  have h1 : sort [some (9 : ℚ)] = [0] := by symm; apply C14_sort_unique <;> decide +kernel
  have h2 : sort [some (9 : ℚ), some 8] = [1, 0] := by symm; apply C14_sort_unique <;> decide +kernel
  unfold segmentDeblend; rw [h1, h2]; decide +kernel

/-- **C136 refuted** (any output can be given): `id`, `px`, `py` are not cleared, so that a second call with the same output aborts. -/
theorem C136_again_refuted : ∃ seg out, segmentDeblend twoPeaks {} twoPar = .ok (seg, out) ∧ segmentDeblend twoPeaks out twoPar = .abort :=
  ⟨_, _, two_deblend, by unfold segmentDeblend; rw [two_sort]; decide +kernel⟩

/-- **C136 refuted** (any image can be given): an empty image is read out of bounds. -/
theorem C136_empty_refuted : segmentDeblend (⟨0, 0, []⟩ : Img (Option ℚ)) {} twoPar = .ub := by
  have h : sort ([] : List (Option ℚ)) = [] := by symm; apply C14_sort_unique <;> decide +kernel
  unfold segmentDeblend; rw [h]; decide +kernel

/-- **C136 refuted** (the pixels above the threshold are in a segment): a pixel that is within reach of a peak but not connected to it is in none, here 4. -/
theorem C136_island_refuted : ∃ seg out, segmentDeblend twoPeaks {} twoPar = .ok (seg, out) ∧ lum twoPeaks (0, 5) = some 4 ∧ val seg (0, 5) = 0 :=
  ⟨_, _, two_deblend, by decide +kernel, by decide +kernel⟩

/-- **C137 refuted** (`area` is the number of pixels of the segment, `flux` their total): the peak is counted twice. Here the segment is the pixels 9 and 3. -/
theorem C137_area_refuted : ∃ seg out, segmentDeblend twoPeaks {} twoPar = .ok (seg, out) ∧ (seg.px.filter (· = 1)).length = 2 ∧ out.area[0]? = some 3 ∧ out.flux[0]? = some (some 21) :=
  ⟨_, _, two_deblend, by decide +kernel, by decide +kernel, by decide +kernel⟩

end Verif.Astro
