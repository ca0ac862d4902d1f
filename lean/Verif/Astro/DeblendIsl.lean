import Verif.Astro.DeblendGrow
import Mathlib.Algebra.BigOperators.Group.List.Basic
/-!
# The second part of `segment_deblend`
-/
namespace Verif.Astro
open Verif Verif.Find

variable {K : Type} [Field K] [LinearOrder K]

/-- Spec: the value of a finite pixel -/
def lumK {K : Type} [Field K] (img : Img (Option K)) (p : Nat × Nat) : K := (lum img p).getD 0

/-- Spec: the pixels used for the barycentre -/
def inBary (img : Img (Option K)) (flim : K) (o p : Nat × Nat) : Bool := decide (flim * lumK img o ≤ lumK img p)

/-- Spec: what is measured on a list of pixels -/
structure Measured (img : Img (Option K)) (flim : K) (o : Nat × Nat) (L : List (Nat × Nat)) (area : Nat) (flux by_ bx fc : Option K) : Prop where
  area : area = L.length
  flux : flux = some ((L.map (lumK img)).sum)
  by_ : by_ = some (((L.filter (inBary img flim o)).map fun p => (p.1 : K) * lumK img p).sum)
  bx : bx = some (((L.filter (inBary img flim o)).map fun p => (p.2 : K) * lumK img p).sum)
  fc : fc = some (((L.filter (inBary img flim o)).map (lumK img)).sum)

theorem measured_nil (img : Img (Option K)) (flim : K) (o : Nat × Nat) : Measured img flim o [] 0 (some 0) (some 0) (some 0) (some 0) := by
  constructor <;> simp

/-- one more pixel -/
theorem measured_snoc {img : Img (Option K)} {flim : K} {o p : Nat × Nat} {L : List (Nat × Nat)} {a : Acc K} (seg : Img Nat)
    (h : Measured img flim o L a.area a.flux a.by_ a.bx a.fc) (ho : lum img o = some (lumK img o)) (hp : lum img p = some (lumK img p)) :
    ∃ a', centroid flim (lum img o) (lum img p) p { a with seg := seg, area := a.area + 1, flux := addO a.flux (lum img p) } = a' ∧ a'.seg = seg ∧
      Measured img flim o (L ++ [p]) a'.area a'.flux a'.by_ a'.bx a'.fc := by
  have hg : geO (lum img p) (mulO (some flim) (lum img o)) = inBary img flim o p := by
    rw [ho, hp]; rfl
  refine ⟨_, rfl, ?_, ?_⟩
  · unfold centroid; split <;> rfl
  · unfold centroid
    rw [hg, hp, h.area, h.flux, h.by_, h.bx, h.fc]
    cases hb : inBary img flim o p
    · constructor <;> simp [hb, addO]
    · constructor <;> simp [hb, addO, mulO]

theorem isl_fold {img : Img (Option K)} {flim : K} {o : Nat × Nat} {cur : Nat} {old : Img Nat} (hw : img.WF) (ho : lum img o = some (lumK img o)) :
    ∀ (l L : List (Nat × Nat)) (a : Acc K), a.seg.WF → (a.seg.nx = img.nx ∧ a.seg.ny = img.ny) → (∀ p ∈ l, p.1 < img.nx ∧ p.2 < img.ny) →
    (∀ p ∈ l, val old p = cur → lum img p = some (lumK img p)) → Measured img flim o L a.area a.flux a.by_ a.bx a.fc →
    ∃ a', l.foldlM (fun a p => islAdd img flim (lum img o) cur a p (val old p)) a = .ok a' ∧ a'.seg.WF ∧ (a'.seg.nx = img.nx ∧ a'.seg.ny = img.ny) ∧
      (∀ q, val a'.seg q = if q ∈ l.filter (fun q => decide (val old q = cur)) then cur else val a.seg q) ∧
      Measured img flim o (L ++ l.filter fun q => decide (val old q = cur)) a'.area a'.flux a'.by_ a'.bx a'.fc
  | [], L, a, h1, h2, _, _, hm => ⟨a, rfl, h1, h2, by simp, by simpa using hm⟩
  | p :: l, L, a, h1, h2, h3, h4, hm => by
    have hp := h3 p (by simp)
    by_cases hc : val old p = cur
    · obtain ⟨seg, s1, s2, s3, s4, s5, -⟩ := put_val h1 (p := p) (by rw [h2.1, h2.2]; exact hp) cur
      have hget : img.get p.1 p.2 = .ok (lum img p) := by
        obtain ⟨b, hb⟩ := at_isSome hw hp.1 hp.2
        rw [get_at hb, lum, hb]; rfl
      obtain ⟨a1, e1, e2, e3⟩ := measured_snoc seg hm ho (h4 p (by simp) hc)
      obtain ⟨a2, g1, g2, g3, g4, g5⟩ := isl_fold hw ho l (L ++ [p]) a1 (by rw [e2]; exact s2) (by rw [e2]; exact ⟨by rw [s3, h2.1], by rw [s4, h2.2]⟩)
        (fun q hq => h3 q (by simp [hq])) (fun q hq => h4 q (by simp [hq])) e3
      refine ⟨a2, ?_, g2, g3, fun q => ?_, ?_⟩
      · rw [List.foldlM_cons, ← g1, islAdd, if_pos hc, s1, Res.ok_bind, hget, Res.ok_bind, e1, Res.ok_bind]
      · rw [g4, e2, s5, List.filter_cons_of_pos (by simpa using hc)]
        by_cases e : q = p
        · subst e; simp
        · simp [e]
      · rw [List.append_assoc] at g5
        rw [List.filter_cons_of_pos (by simpa using hc)]
        exact g5
    · obtain ⟨a2, g1, g2, g3, g4, g5⟩ := isl_fold hw ho l L a h1 h2 (fun q hq => h3 q (by simp [hq])) (fun q hq => h4 q (by simp [hq])) hm
      refine ⟨a2, ?_, g2, g3, fun q => ?_, ?_⟩
      · rw [List.foldlM_cons, ← g1, islAdd, if_neg hc, Res.ok_bind]
      · rw [g4, List.filter_cons_of_neg (by simpa using hc)]
      · rw [List.filter_cons_of_neg (by simpa using hc)]; exact g5

/-- Spec: the pixels of a list with the peak counted twice, if it is not alone -/
def twice (o : Nat × Nat) (L : List (Nat × Nat)) : List (Nat × Nat) := if 2 ≤ L.length then o :: L else L

theorem Measured.perm {img : Img (Option K)} {flim : K} {o : Nat × Nat} {L L' : List (Nat × Nat)} {area : Nat} {flux by_ bx fc : Option K}
    (h : Measured img flim o L area flux by_ bx fc) (hp : L.Perm L') : Measured img flim o L' area flux by_ bx fc where
  area := by rw [h.area, hp.length_eq]
  flux := by rw [h.flux, (hp.map _).sum_eq]
  by_ := by rw [h.by_, ((hp.filter _).map _).sum_eq]
  bx := by rw [h.bx, ((hp.filter _).map _).sum_eq]
  fc := by rw [h.fc, ((hp.filter _).map _).sum_eq]

theorem twice_perm {o : Nat × Nat} {R L : List (Nat × Nat)} (hR : R.Nodup) (h : R = [] ∨ o ∈ R ∧ ∃ p ∈ R, p ≠ o) (hL : L.Nodup) (hmem : ∀ q, q ∈ L ↔ q ∈ o :: R) :
    (o :: R).Perm (twice o L) := by
  unfold twice
  rcases h with rfl | ⟨ho, p, hp, hne⟩
  · have : L.Perm [o] := (List.perm_ext_iff_of_nodup hL (List.nodup_singleton o)).2 hmem
    rw [if_neg (by rw [this.length_eq]; simp)]
    exact this.symm
  · have hRL : R.Perm L := (List.perm_ext_iff_of_nodup hR hL).2 fun q => by
      rw [hmem, List.mem_cons]
      constructor
      · exact Or.inr
      · rintro (rfl | h) <;> assumption
    have h2 : 2 ≤ R.length := by
      have hsub : [p, o].Subperm R := List.subperm_of_subset (show [p, o].Nodup by simp [hne]) (by
        intro a ha
        simp only [List.mem_cons, List.not_mem_nil, or_false] at ha
        rcases ha with rfl | rfl <;> assumption)
      exact hsub.length_le
    rw [if_pos (by rw [← hRL.length_eq]; exact h2)]
    exact hRL.cons _

/-- Spec: the pixels that stay in their segment: those connected to its peak -/
def Kept (img : Img (Option K)) (first : Nat) (old : Img Nat) (origin : List Nat) (q : Nat × Nat) : Prop :=
  val old q ≠ 0 ∧ ∃ m, origin[val old q - first]? = some m ∧ Linked old (pos img m) q

/-- what is known of a segment after the second part -/
structure SegMeas (img : Img (Option K)) (flim : K) (old : Img Nat) (origin : List Nat) (x : Isl K) (j : Nat) : Prop where
  ex : ∃ m R area flux by_ bx fc, origin[j]? = some m ∧ R.Nodup ∧ (∀ q, q ∈ pos img m :: R ↔ Linked old (pos img m) q) ∧ (R = [] ∨ pos img m ∈ R ∧ ∃ p ∈ R, p ≠ pos img m) ∧
    x.area[j]? = some area ∧ x.flux[j]? = some flux ∧ x.by_[j]? = some by_ ∧ x.bx[j]? = some bx ∧ x.fc[j]? = some fc ∧ Measured img flim (pos img m) (pos img m :: R) area flux by_ bx fc

/-- what holds before segment `k` of the second part -/
structure IInv (img : Img (Option K)) (P : DebParams K) (old : Img Nat) (origin : List Nat) (k : Nat) (x : Isl K) : Prop where
  segw : x.seg.WF
  segd : x.seg.nx = img.nx ∧ x.seg.ny = img.ny
  visw : x.vis.WF
  visd : x.vis.nx = img.nx ∧ x.vis.ny = img.ny
  vis : ∀ q, val x.vis q < P.first + k
  yes : ∀ q, Kept img P.first old origin q → val old q < P.first + k → val x.seg q = val old q
  no : ∀ q, ¬ (Kept img P.first old origin q ∧ val old q < P.first + k) → val x.seg q = 0
  len : x.area.length = origin.length ∧ x.flux.length = origin.length ∧ x.by_.length = origin.length ∧ x.bx.length = origin.length ∧ x.fc.length = origin.length
  meas : ∀ j, j < k → SegMeas img P.flim old origin x j
  rest : ∀ j, k ≤ j → j < origin.length → x.area[j]? = some 0 ∧ x.flux[j]? = some (some 0) ∧ x.by_[j]? = some (some 0) ∧ x.bx[j]? = some (some 0) ∧ x.fc[j]? = some (some 0)

theorem isl_step {img : Img (Option K)} {P : DebParams K} {old : DebOut K} {top e k : Nat} {d : Deb} {x : Isl K} (hw : img.WF) (hf : 0 < P.first)
    (hd : DebInv img P old top e d) (hid : old.id = []) (hi : IInv img P d.seg d.origin k x) (hk : k < d.origin.length) :
    ∃ x', islSegment img P d.seg d.ids d.origin x k = .ok x' ∧ IInv img P d.seg d.origin (k + 1) x' := by
  obtain ⟨m, hm⟩ : ∃ m, d.origin[k]? = some m := ⟨_, List.getElem?_eq_getElem hk⟩
  obtain ⟨hml, hmv⟩ := hd.own k m hm
  set o := pos img m with ho
  have hor := pos_rng hw hml
  rw [← ho] at hor
  have hids : d.ids[k]? = some (val d.seg o) := by
    rw [hd.ids, hid, List.nil_append, List.getElem?_map, List.getElem?_range hk, hmv]; rfl
  have hv0 : val d.seg o ≠ 0 := by rw [hmv]; omega
  have hfin : ∀ q, val d.seg q ≠ 0 → lum img q = some (lumK img q) := by
    intro q hq
    obtain ⟨a, ha, -⟩ := hd.bright q hq
    rw [lumK, ha]; rfl
  have hpeak : img.px[m]? = some (lum img o) := by
    rw [ho, lum_pos hw hml, elt, List.getD_eq_getElem?_getD, List.getElem?_eq_getElem hml, Option.getD_some]
  obtain ⟨w, seen, R, w1, w2, w3, w4, w5, w6, w7, w8, w9, w10⟩ := walkA_spec (seg := d.seg) (vis := x.vis) (o := o) hd.segw hi.visw
    ⟨by rw [hi.visd.1, hd.segd.1], by rw [hi.visd.2, hd.segd.2]⟩ hv0 (fun q => by have := hi.vis q; rw [hmv]; omega)
  obtain ⟨r1, r2, r3, r4, r5⟩ := hi.rest k (Nat.le_refl _) hk
  have hseen : ∀ p ∈ seen, p.1 < img.nx ∧ p.2 < img.ny := by
    intro p hp
    rcases (w9 p).1 hp with rfl | ⟨h1, h2, -⟩
    · exact hor
    · rw [hd.segd.1] at h1; rw [hd.segd.2] at h2; exact ⟨h1, h2⟩
  obtain ⟨a, f1, f2, f3, f4, f5⟩ := isl_fold (flim := P.flim) (cur := val d.seg o) (old := d.seg) hw (hfin o hv0) seen [] ⟨x.seg, 0, some 0, some 0, some 0, some 0⟩
    hi.segw hi.segd hseen (fun p _ hc => hfin p (by rw [hc]; exact hv0)) (measured_nil _ _ _)
  rw [List.nil_append, w5] at f5
  rw [w5] at f4
  refine ⟨⟨a.seg, w.vis, x.area.set k a.area, x.flux.set k a.flux, x.by_.set k a.by_, x.bx.set k a.bx, x.fc.set k a.fc⟩, ?_, ?_⟩
  · unfold islSegment
    rw [chk_some hids, Res.ok_bind, chk_some hm, Res.ok_bind, chk_some hpeak, Res.ok_bind, chk_some r1, Res.ok_bind, chk_some r2, Res.ok_bind, chk_some r3,
      Res.ok_bind, chk_some r4, Res.ok_bind, chk_some r5, Res.ok_bind]
    have hpo : (m / x.seg.ny, m % x.seg.ny) = o := by rw [hi.segd.2]; rfl
    rw [hpo, w10, f1, Res.ok_bind, Res.ok_bind]
  · obtain ⟨n1, n2, n3, n4, n5⟩ := hi.len
    refine ⟨f2, f3, w1, ⟨by rw [w2.1, hd.segd.1], by rw [w2.2, hd.segd.2]⟩, ?_, ?_, ?_, by simp [n1, n2, n3, n4, n5], ?_, ?_⟩
    · intro q
      rcases w3 q with h | h
      · show val w.vis q < _
        rw [h, hmv]; omega
      · show val w.vis q < _
        rw [h]; have := hi.vis q; omega
    · intro q hq hlt
      show val a.seg q = _
      rw [f4]
      by_cases hm' : q ∈ o :: R
      · rw [if_pos hm']; exact ((w7 q).1 hm').val.symm
      · rw [if_neg hm']
        refine hi.yes q hq ?_
        by_contra hge
        have hlab := hd.lab q hq.1
        have hk' : val d.seg q - P.first = k := by omega
        obtain ⟨-, m', hm'', hl⟩ := hq
        rw [hk', hm, Option.some.injEq] at hm''
        rw [← hm''] at hl
        exact hm' ((w7 q).2 hl)
    · intro q hq
      show val a.seg q = _
      rw [f4, if_neg]
      · exact hi.no q fun h => hq ⟨h.1, by omega⟩
      · intro hm'
        have hl := (w7 q).1 hm'
        have hvq := hl.val
        apply hq
        refine ⟨⟨by rw [hvq]; exact hv0, m, ?_, hl⟩, by rw [hvq, hmv]; omega⟩
        rw [hvq, hmv, Nat.add_sub_cancel_left]; exact hm
    · intro j hj
      by_cases e' : j = k
      · subst e'
        refine ⟨m, R, a.area, a.flux, a.by_, a.bx, a.fc, hm, w6, w7, w8, ?_, ?_, ?_, ?_, ?_, f5⟩ <;>
          (simp only; rw [List.getElem?_set_self (by omega)])
      · obtain ⟨m', R', area, flux, by_, bx, fc, h1, h2, h3, h4, h5, h6, h7, h8, h9, h10⟩ := (hi.meas j (by omega)).ex
        refine ⟨m', R', area, flux, by_, bx, fc, h1, h2, h3, h4, ?_, ?_, ?_, ?_, ?_, h10⟩ <;>
          (simp only; rw [List.getElem?_set_ne (by omega)]; assumption)
    · intro j hj1 hj2
      have := hi.rest j (by omega) hj2
      simp only
      rw [List.getElem?_set_ne (by omega), List.getElem?_set_ne (by omega), List.getElem?_set_ne (by omega), List.getElem?_set_ne (by omega), List.getElem?_set_ne (by omega)]
      exact this

theorem resizeTo_nil {β : Type} (n : Nat) (z : β) : resizeTo [] n z = List.replicate n z := by simp [resizeTo]

theorem isl_spec {img : Img (Option K)} {P : DebParams K} {old : DebOut K} {top e : Nat} {d : Deb} (hw : img.WF) (hf : 0 < P.first)
    (hd : DebInv img P old top e d) (hid : old.id = []) :
    ∃ x, (List.range d.origin.length).foldlM (islSegment img P d.seg d.ids d.origin) ⟨Img.fill img.nx img.ny 0, Img.fill img.nx img.ny 0,
        List.replicate d.origin.length 0, List.replicate d.origin.length (some 0), List.replicate d.origin.length (some 0), List.replicate d.origin.length (some 0),
        List.replicate d.origin.length (some 0)⟩ = .ok x ∧ IInv img P d.seg d.origin d.origin.length x := by
  refine foldlM_range (IInv img P d.seg d.origin) _ ?_ (fun i s hi h => isl_step hw hf hd hid h hi)
  refine ⟨fill_wf _ _ _, ⟨rfl, rfl⟩, fill_wf _ _ _, ⟨rfl, rfl⟩, ?_, ?_, ?_, by simp, by simp, ?_⟩
  · intro q
    show val (Img.fill _ _ _) q < _
    rw [val_fill]; omega
  · intro q hq hlt
    have := hd.lab q hq.1
    omega
  · intro q _
    exact val_fill _ _ q
  · intro j _ hj
    simp [hj]

end Verif.Astro
