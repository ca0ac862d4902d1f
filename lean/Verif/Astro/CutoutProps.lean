import Verif.Astro.Cutout
import Verif.Astro.RegionProps
import Mathlib.Data.Rat.Floor
import Mathlib.Algebra.Order.Field.Basic
import Mathlib.Tactic.Linarith
/-!
# C142: cutouts
-/
namespace Verif.Astro
open Verif Verif.Bil

section
variable {β : Type}

theorem flatten_rows (n m : Nat) (f : Nat → Nat → β) {i j : Nat} (hi : i < n) (hj : j < m) :
    ((List.range n).map fun i => (List.range m).map (f i)).flatten[i * m + j]? = some (f i j) := by
  induction n generalizing i f with
  | zero => omega
  | succ n ih =>
    rw [List.range_succ_eq_map, List.map_cons, List.flatten_cons]
    cases i with
    | zero =>
      rw [List.getElem?_append_left (by simpa using hj)]
      simp [hj]
    | succ i =>
      rw [List.getElem?_append_right (by simp; nlinarith)]
      have e : (i + 1) * m + j - ((List.range m).map (f 0)).length = i * m + j := by
        simp only [List.length_map, List.length_range]
        rw [Nat.succ_mul]; omega
      rw [e, List.map_map]
      exact ih (fun i => f (i + 1)) (by omega)

theorem readRect_spec {v : Img β} (hw : v.WF) {y0 y1 x0 x1 : Nat} (h1 : y1 < v.nx) (h2 : x1 < v.ny) (h3 : y0 ≤ y1) (h4 : x0 ≤ x1) :
    ∃ r, readRect v y0 y1 x0 x1 = .ok r ∧ r.WF ∧ r.nx = y1 + 1 - y0 ∧ r.ny = x1 + 1 - x0 ∧
      ∀ i j, i < y1 + 1 - y0 → j < x1 + 1 - x0 → r.at i j = v.at (y0 + i) (x0 + j) := by
  obtain ⟨d, -⟩ := at_isSome hw h1 h2
  let g : Nat → Nat → β := fun i j => (v.at (y0 + i) (x0 + j)).getD d
  have hg : ∀ i j, i < y1 + 1 - y0 → j < x1 + 1 - x0 → v.at (y0 + i) (x0 + j) = some (g i j) := by
    intro i j hi hj
    obtain ⟨a, ha⟩ := at_isSome hw (x := y0 + i) (y := x0 + j) (by omega) (by omega)
    simp only [g]
    rw [ha]
    rfl
  have hm : ((List.range (y1 + 1 - y0)).mapM fun i => (List.range (x1 + 1 - x0)).mapM fun j => v.get (y0 + i) (x0 + j)) =
      Res.ok ((List.range (y1 + 1 - y0)).map fun i => (List.range (x1 + 1 - x0)).map (g i)) := by
    apply Res.mapM_ok
    intro i hi
    rw [List.mem_range] at hi
    apply Res.mapM_ok
    intro j hj
    rw [List.mem_range] at hj
    exact get_at (hg i j hi hj)
  refine ⟨⟨y1 + 1 - y0, x1 + 1 - x0, ((List.range (y1 + 1 - y0)).map fun i => (List.range (x1 + 1 - x0)).map (g i)).flatten⟩, ?_, ?_, rfl, rfl, ?_⟩
  · unfold readRect
    rw [if_pos ⟨h1, h2⟩, if_pos ⟨h3, h4⟩, hm, Res.ok_bind]
  · unfold Img.WF
    simp only [List.length_flatten, List.map_map]
    rw [show (List.length ∘ fun i => (List.range (x1 + 1 - x0)).map (g i)) = fun _ => x1 + 1 - x0 by funext i; simp]
    simp
  · intro i j hi hj
    unfold Img.at
    rw [if_pos ⟨hi, hj⟩]
    simp only
    rw [flatten_rows _ _ _ hi hj, ← hg i j hi hj]
    rfl

theorem assignRect_spec {d s : Img β} (hd : d.WF) (hs : s.WF) {y0 y1 x0 x1 : Nat} (h1 : y1 < d.nx) (h2 : x1 < d.ny) (h3 : y0 ≤ y1)
    (h4 : x0 ≤ x1) (e1 : s.nx = y1 + 1 - y0) (e2 : s.ny = x1 + 1 - x0) :
    ∃ r, assignRect d y0 y1 x0 x1 s = .ok r ∧ r.WF ∧ r.nx = d.nx ∧ r.ny = d.ny ∧
      ∀ y x, r.at y x = if y0 ≤ y ∧ y ≤ y1 ∧ x0 ≤ x ∧ x ≤ x1 then s.at (y - y0) (x - x0) else d.at y x := by
  have hex : ∃ val : Nat → Nat → β, ∀ i j, i < y1 + 1 - y0 → j < x1 + 1 - x0 → s.at i j = some (val i j) := by
    obtain ⟨b, -⟩ := at_isSome hs (x := 0) (y := 0) (by omega) (by omega)
    refine ⟨fun i j => (s.at i j).getD b, fun i j hi hj => ?_⟩
    obtain ⟨a, ha⟩ := at_isSome hs (x := i) (y := j) (by omega) (by omega)
    simp only [ha, Option.getD_some]
  obtain ⟨val, hval⟩ := hex
  obtain ⟨r, r1, r2, r3, r4, r5, r6⟩ := for2_write (nx := y1 + 1 - y0) (ny := x1 + 1 - x0)
    (body := fun i j d => do
      let a ← s.get i j
      d.put (y0 + i) (x0 + j) a) (fun i => y0 + i) (fun j => x0 + j) val d hd
    (fun x hx => by omega) (fun x hx => by omega) (fun _ _ _ _ h => by omega)
    (fun _ _ _ _ h => by omega) (by
      intro x y t hx hy _ _ _
      rw [get_at (hval x y hx hy), Res.ok_bind])
  refine ⟨r, ?_, r2, r3, r4, ?_⟩
  · unfold assignRect
    rw [Res.check_pos ⟨h1, h2⟩, Res.ok_bind, Res.check_pos ⟨h3, h4⟩, Res.ok_bind, Res.check_pos ⟨e1, e2⟩, Res.ok_bind]
    exact r1
  · intro y x
    split
    · rename_i h
      have := r5 (y - y0) (x - x0) (by omega) (by omega)
      rw [show y0 + (y - y0) = y by omega, show x0 + (x - x0) = x by omega] at this
      rw [this, hval _ _ (by omega) (by omega)]
    · rename_i h
      apply r6
      rintro ⟨i, j, hi, hj, p, q⟩
      omega
end

variable {K : Type} [Field K] [LinearOrder K] [FloorRing K]

/-! ### Specification -/

/-- Spec: the pixel of an image at a position which may be outside. -/
def pixAt (v : Img (Option K)) (y x : Int) : Option (Option K) := if 0 ≤ y ∧ 0 ≤ x then v.at y.toNat x.toNat else none

/-- Spec: the pixel `(y,x)` of the box of half size `hs` around the source in one image. -/
def boxPix (hs : Nat) (y x : Nat) (c : CutImg K) : Option (Option K) :=
  pixAt c.img (roundI c.dyc - hs + y) (roundI c.dxc - hs + x)

/-- Spec: a pixel of the box is in the image. -/
def Covers (hs : Nat) (c : CutImg K) : Prop := ∃ y x : Nat, y < 2 * hs + 1 ∧ x < 2 * hs + 1 ∧ (boxPix hs y x c).isSome = true

/-- images and boxes whose coordinates fit in `int_t` -/
structure CutOk (hs : Nat) (c : CutImg K) : Prop where
  wf : c.img.WF
  ny : 0 < c.img.nx ∧ c.img.nx < 2 ^ 62
  nx : 0 < c.img.ny ∧ c.img.ny < 2 ^ 62
  y : |roundI c.dyc| < 2 ^ 62
  x : |roundI c.dxc| < 2 ^ 62
  h : hs < 2 ^ 61

omit [Field K] [LinearOrder K] [FloorRing K] in
theorem pixAt_some {v : Img (Option K)} (hw : v.WF) {y x : Int} : (pixAt v y x).isSome = true ↔ 0 ≤ y ∧ y < v.nx ∧ 0 ≤ x ∧ x < v.ny := by
  unfold pixAt
  constructor
  · intro h
    split at h
    · obtain ⟨a, ha⟩ := Option.isSome_iff_exists.1 h
      have := at_lt ha
      omega
    · simp at h
  · rintro ⟨h1, h2, h3, h4⟩
    rw [if_pos ⟨h1, h3⟩]
    obtain ⟨a, ha⟩ := at_isSome hw (x := y.toNat) (y := x.toNat) (by omega) (by omega)
    rw [ha]
    rfl

theorem clip1 {n hs : Nat} {c : Int} (hn : 0 < n) (h1 : 0 ≤ c + hs) (h2 : c - hs < n) :
    ∃ t0 t1 a0 a1 : Nat, (max 0 (c - hs)).toNat = t0 ∧ min (n - 1) (c + hs).toNat = t1 ∧ ((t0 : Int) - (c - hs)).toNat = a0 ∧
      ((t1 : Int) - (c - hs)).toNat = a1 ∧ t1 < n ∧ t0 ≤ t1 ∧ (a0 : Int) = t0 - (c - hs) ∧ (a1 : Int) = t1 - (c - hs) ∧ a1 < 2 * hs + 1 ∧
      ∀ y : Nat, y < 2 * hs + 1 → (a0 ≤ y ∧ y ≤ a1 ↔ 0 ≤ c - hs + y ∧ (c - hs + y).toNat < n) := by
  obtain ⟨t0, ht0⟩ : ∃ t0 : Nat, (t0 : Int) = max 0 (c - hs) := ⟨(max 0 (c - hs)).toNat, Int.toNat_of_nonneg (le_max_left _ _)⟩
  obtain ⟨u, hu⟩ : ∃ u : Nat, (u : Int) = c + hs := ⟨(c + hs).toNat, Int.toNat_of_nonneg h1⟩
  obtain ⟨t1, ht1⟩ : ∃ t1, min (n - 1) u = t1 := ⟨_, rfl⟩
  have k0 : t0 ≤ t1 ∧ c - hs ≤ t0 ∧ c - hs ≤ t1 := by
    rcases le_total (n - 1) u with h | h
    · rw [min_eq_left h] at ht1
      rcases le_total 0 (c - hs) with h' | h'
      · rw [max_eq_right h'] at ht0; omega
      · rw [max_eq_left h'] at ht0; omega
    · rw [min_eq_right h] at ht1
      rcases le_total 0 (c - hs) with h' | h'
      · rw [max_eq_right h'] at ht0; omega
      · rw [max_eq_left h'] at ht0; omega
  obtain ⟨a0, ha0⟩ : ∃ a0 : Nat, (a0 : Int) = t0 - (c - hs) := ⟨((t0 : Int) - (c - hs)).toNat, Int.toNat_of_nonneg (by omega)⟩
  obtain ⟨a1, ha1⟩ : ∃ a1 : Nat, (a1 : Int) = t1 - (c - hs) := ⟨((t1 : Int) - (c - hs)).toNat, Int.toNat_of_nonneg (by omega)⟩
  refine ⟨t0, t1, a0, a1, by rw [← ht0]; rfl, by rw [← hu]; exact ht1, by rw [← ha0]; rfl, by rw [← ha1]; rfl, by omega, k0.1, ha0, ha1, by omega, ?_⟩
  intro y hy
  constructor
  · rintro ⟨p, q⟩
    have : t1 ≤ n - 1 := by rw [← ht1]; exact min_le_left _ _
    have : 0 ≤ c - hs + y := by omega
    refine ⟨this, ?_⟩
    omega
  · rintro ⟨p, q⟩
    obtain ⟨w, hw⟩ : ∃ w : Nat, (w : Int) = c - hs + y := ⟨(c - hs + y).toNat, Int.toNat_of_nonneg p⟩
    rw [← hw, Int.toNat_natCast] at q
    constructor
    · have : (t0 : Int) ≤ w := by rw [ht0]; exact max_le (by omega) (by omega)
      omega
    · have : w ≤ t1 := by rw [← ht1]; exact le_min (by omega) (by omega)
      omega

theorem cutData_spec {hs : Nat} {c : CutImg K} (h : CutOk hs c) (dflt : Option K) :
    (¬ Covers hs c ∧ cutData c hs dflt = .ok none) ∨
    (Covers hs c ∧ ∃ r, cutData c hs dflt = .ok (some r) ∧ r.WF ∧ r.nx = 2 * hs + 1 ∧ r.ny = 2 * hs + 1 ∧
      ∀ y x, y < 2 * hs + 1 → x < 2 * hs + 1 → r.at y x = some ((boxPix hs y x c).getD dflt)) := by
  obtain ⟨hw, ⟨n1, n2⟩, ⟨m1, m2⟩, by_, bx, hh⟩ := h
  rw [abs_lt] at by_ bx
  unfold Covers boxPix
  unfold cutData
  generalize roundI c.dyc = yc at *
  generalize roundI c.dxc = xc at *
  generalize c.img = v at *
  rw [s64, if_pos (by omega), Res.ok_bind, s64, if_pos (by omega), Res.ok_bind, s64, if_pos (by omega), Res.ok_bind, s64, if_pos (by omega),
    Res.ok_bind, s64, if_pos (by omega), Res.ok_bind, s64, if_pos (by omega), Res.ok_bind]
  simp only [pixAt_some hw]
  by_cases hc : xc + hs < 0 ∨ xc - hs ≥ v.ny ∨ yc + hs < 0 ∨ yc - hs ≥ v.nx
  · left
    rw [if_pos hc]
    refine ⟨?_, rfl⟩
    rintro ⟨y, x, hy, hx, h1, h2, h3, h4⟩
    omega
  · right
    rw [if_neg hc]
    refine ⟨⟨(max 0 (yc - hs) - (yc - hs)).toNat, (max 0 (xc - hs) - (xc - hs)).toNat, by omega, by omega, by omega, by omega, by omega, by omega⟩, ?_⟩
    have hsub : ∀ n : Nat, 0 < n → n < 2 ^ 62 → sub64 n 1 = n - 1 := by
      intro n h1 h2
      unfold sub64 W
      omega
    rw [hsub _ m1 m2, hsub _ n1 n2]
    by_cases hp : xc - hs < 0 ∨ xc + hs ≥ v.ny ∨ yc - hs < 0 ∨ yc + hs ≥ v.nx
    · rw [if_pos hp]
      obtain ⟨ty0, ty1, a0, a1, f1, f2, f3, f4, ky1, ky2, ky3, ky4, ky5, ly⟩ := clip1 n1 (hs := hs) (c := yc) (by omega) (by omega)
      obtain ⟨tx0, tx1, b0, b1, f5, f6, f7, f8, kx1, kx2, kx3, kx4, kx5, lx⟩ := clip1 m1 (hs := hs) (c := xc) (by omega) (by omega)
      rw [f1, f2, f5, f6, f3, f4, f7, f8]
      clear hp hc n1 n2 m1 m2 by_ bx hh hsub f1 f2 f3 f4 f5 f6 f7 f8
      obtain ⟨s, s1, s2, s3, s4, s5⟩ := readRect_spec hw ky1 kx1 ky2 kx2
      rw [s1, Res.ok_bind]
      obtain ⟨r, r1, r2, r3, r4, r5⟩ := assignRect_spec (d := Img.fill (2 * hs + 1) (2 * hs + 1) dflt) (s := s) (fill_wf _ _ _) s2
        (y0 := a0) (y1 := a1) (x0 := b0) (x1 := b1) ky5 kx5 (by omega) (by omega) (by omega) (by omega)
      rw [r1, Res.ok_bind]
      refine ⟨r, rfl, r2, r3, r4, ?_⟩
      intro y x hy hx
      rw [r5, fill_at]
      unfold pixAt
      have ly' := ly y hy
      have lx' := lx x hx
      by_cases hin : a0 ≤ y ∧ y ≤ a1 ∧ b0 ≤ x ∧ x ≤ b1
      · obtain ⟨p1, p2⟩ := ly'.1 ⟨hin.1, hin.2.1⟩
        obtain ⟨p3, p4⟩ := lx'.1 hin.2.2
        rw [if_pos hin, s5 _ _ (by omega) (by omega), if_pos ⟨p1, p3⟩]
        have e1 : ty0 + (y - a0) = (yc - hs + y).toNat := by omega
        have e2 : tx0 + (x - b0) = (xc - hs + x).toNat := by omega
        rw [e1, e2]
        obtain ⟨a, ha⟩ := at_isSome hw p2 p4
        rw [ha]
        rfl
      · rw [if_neg hin, if_pos ⟨hy, hx⟩]
        split
        · rename_i hpos
          rw [at_none (fun hh => hin ⟨(ly'.2 ⟨hpos.1, hh.1⟩).1, (ly'.2 ⟨hpos.1, hh.1⟩).2, lx'.2 ⟨hpos.2, hh.2⟩⟩)]
          rfl
        · rfl
    · rw [if_neg hp]
      obtain ⟨r, r1, r2, r3, r4, r5⟩ := readRect_spec hw (y0 := (yc - hs).toNat) (y1 := (yc + hs).toNat) (x0 := (xc - hs).toNat)
        (x1 := (xc + hs).toNat) (by omega) (by omega) (by omega) (by omega)
      rw [r1, Res.ok_bind]
      refine ⟨r, rfl, r2, by omega, by omega, ?_⟩
      intro y x hy hx
      unfold pixAt
      rw [r5 y x (by omega) (by omega), if_pos (by omega)]
      have e1 : (yc - hs).toNat + y = (yc - hs + y).toNat := by omega
      have e2 : (xc - hs).toNat + x = (xc - hs + x).toNat := by omega
      rw [e1, e2]
      obtain ⟨a, ha⟩ := at_isSome hw (x := (yc - hs + y).toNat) (y := (xc - hs + x).toNat) (by omega) (by omega)
      rw [ha]
      rfl

omit [Field K] [LinearOrder K] [FloorRing K] in
theorem fillIn_spec {cut data : Img (Option K)} (h1 : cut.WF) (h2 : data.WF) (e1 : data.nx = cut.nx) (e2 : data.ny = cut.ny) :
    ∃ r, fillIn cut data = .ok r ∧ r.WF ∧ r.nx = cut.nx ∧ r.ny = cut.ny ∧
      ∀ y x, r.at y x = match cut.at y x with
        | some none => data.at y x
        | o => o := by
  have hl : data.px.length = cut.px.length := by rw [h2, h1, e1, e2]
  let f : Nat → Option K := fun i => match cut.px[i]? with
    | some none => (data.px[i]?).getD none
    | o => o.getD none
  have hm : (List.range cut.px.length).mapM (fillPix cut data) = Res.ok ((List.range cut.px.length).map f) := by
    apply Res.mapM_ok
    intro i hi
    rw [List.mem_range] at hi
    unfold fillPix
    rw [Res.rd_lt hi, Res.ok_bind]
    simp only [f]
    rw [List.getElem?_eq_getElem hi]
    cases hc : cut.px[i] with
    | some v => rfl
    | none =>
      simp only
      unfold chk
      rw [List.getElem?_eq_getElem (by omega)]
      rfl
  refine ⟨⟨cut.nx, cut.ny, (List.range cut.px.length).map f⟩, ?_, by unfold Img.WF at *; simpa using h1, rfl, rfl, ?_⟩
  · unfold fillIn
    rw [hm, Res.ok_bind]
  · intro y x
    unfold Img.at
    simp only [e1, e2]
    by_cases hr : y < cut.nx ∧ x < cut.ny
    · have hi : y * cut.ny + x < cut.px.length := by rw [h1]; exact flat_lt hr.1 hr.2
      rw [if_pos hr, if_pos hr, if_pos hr, List.getElem?_map, List.getElem?_range hi, Option.map_some]
      simp only [f]
      rw [List.getElem?_eq_getElem hi]
      cases hc : cut.px[y * cut.ny + x] with
      | some v => rfl
      | none =>
        simp only
        rw [List.getElem?_eq_getElem (by omega)]
        rfl
    · rw [if_neg hr, if_neg hr, if_neg hr]

open Classical in
/-- the value of a pixel after one more image; `none` before the first image that covers the source -/
noncomputable def pstep (hs : Nat) (dflt : Option K) (y x : Nat) (v : Option (Option K)) (c : CutImg K) : Option (Option K) :=
  if Covers hs c then match v with
    | some (some a) => some (some a)
    | _ => some ((boxPix hs y x c).getD dflt)
  else v

theorem pstep_not {hs : Nat} {c : CutImg K} (h : ¬ Covers hs c) (dflt : Option K) (y x : Nat) (v : Option (Option K)) : pstep hs dflt y x v c = v := if_neg h

theorem pstep_none {hs : Nat} {c : CutImg K} (h : Covers hs c) (dflt : Option K) (y x : Nat) : pstep hs dflt y x none c = some ((boxPix hs y x c).getD dflt) := if_pos h

theorem pstep_nan {hs : Nat} {c : CutImg K} (h : Covers hs c) (dflt : Option K) (y x : Nat) : pstep hs dflt y x (some none) c = some ((boxPix hs y x c).getD dflt) := if_pos h

theorem pstep_val {hs : Nat} {c : CutImg K} (dflt : Option K) (y x : Nat) (a : K) : pstep hs dflt y x (some (some a)) c = some (some a) := by
  unfold pstep; split <;> rfl

/-- the cutout has these pixels -/
def CutHas (hs : Nat) (st : CutSt K) (V : Nat → Nat → Option (Option K)) : Prop :=
  match st.cut with
  | none => ∀ y x, V y x = none
  | some cut => cut.WF ∧ cut.nx = 2 * hs + 1 ∧ cut.ny = 2 * hs + 1 ∧ ∀ y x, y < 2 * hs + 1 → x < 2 * hs + 1 → cut.at y x = V y x ∧ V y x ≠ none

theorem cutStep_spec {hs : Nat} {c : CutImg K} (h : CutOk hs c) (dflt : Option K) (gethdr : Bool) (k : Nat) (st : CutSt K) (V : Nat → Nat → Option (Option K))
    (hV : CutHas hs st V) :
    ∃ st', cutStep hs dflt gethdr st (c, k) = .ok st' ∧ CutHas hs st' (fun y x => pstep hs dflt y x (V y x) c) ∧
      (¬ Covers hs c → st' = st) ∧ (Covers hs c → st'.cut.isSome = true) ∧
      (st.cut.isSome = true → st'.hdr = st.hdr ∧ st'.px = st.px ∧ st'.py = st.py) ∧
      (Covers hs c → st.cut = none → st'.hdr = (if gethdr then some (.image k) else st.hdr) ∧
        st'.px = (hs : K) + 1 + (c.dxc - ((roundI c.dxc : Int) : K)) ∧ st'.py = (hs : K) + 1 + (c.dyc - ((roundI c.dyc : Int) : K))) := by
  unfold cutStep
  rcases cutData_spec h dflt with ⟨hc, hd⟩ | ⟨hc, data, hd, d1, d2, d3, d4⟩
  · simp only
    rw [hd, Res.ok_bind]
    refine ⟨st, rfl, ?_, fun _ => rfl, fun h' => absurd h' hc, fun _ => ⟨rfl, rfl, rfl⟩, fun h' => absurd h' hc⟩
    simp only [pstep_not hc]
    exact hV
  · simp only
    rw [hd, Res.ok_bind]
    cases hcut : st.cut with
    | none =>
      simp only
      refine ⟨_, rfl, ?_, fun h' => absurd hc h', fun _ => rfl, fun h' => by simp at h', fun _ _ => ⟨rfl, rfl, rfl⟩⟩
      unfold CutHas at hV ⊢
      rw [hcut] at hV
      simp only at hV ⊢
      refine ⟨d1, d2, d3, ?_⟩
      intro y x hy hx
      rw [d4 y x hy hx, hV y x, pstep_none hc]
      exact ⟨rfl, by simp⟩
    | some cut =>
      unfold CutHas at hV
      rw [hcut] at hV
      simp only at hV ⊢
      obtain ⟨v1, v2, v3, v4⟩ := hV
      obtain ⟨r, r1, r2, r3, r4, r5⟩ := fillIn_spec v1 d1 (by omega) (by omega)
      rw [r1, Res.ok_bind]
      refine ⟨_, rfl, ?_, fun h' => absurd hc h', fun _ => rfl, fun _ => ⟨rfl, rfl, rfl⟩, fun _ h' => by simp at h'⟩
      unfold CutHas
      simp only
      refine ⟨r2, by omega, by omega, ?_⟩
      intro y x hy hx
      obtain ⟨w1, w2⟩ := v4 y x hy hx
      rw [r5, w1]
      cases hVv : V y x with
      | none => exact absurd hVv w2
      | some o =>
        cases o with
        | some a => rw [pstep_val]; exact ⟨rfl, by simp⟩
        | none =>
          rw [pstep_nan hc]
          simp only
          rw [d4 y x hy hx]
          exact ⟨rfl, by simp⟩

theorem cutLoop_spec {hs : Nat} (dflt : Option K) (gethdr : Bool) (l : List (CutImg K)) : ∀ (k : Nat) (st : CutSt K) (V : Nat → Nat → Option (Option K)),
    (∀ c ∈ l, CutOk hs c) → CutHas hs st V →
    ∃ st', (l.zipIdx k).foldlM (cutStep hs dflt gethdr) st = .ok st' ∧ CutHas hs st' (fun y x => l.foldl (pstep hs dflt y x) (V y x)) ∧
      ((∀ c ∈ l, ¬ Covers hs c) → st' = st) ∧ (st'.cut.isSome = true ↔ st.cut.isSome = true ∨ ∃ c ∈ l, Covers hs c) ∧
      (st.cut.isSome = true → st'.hdr = st.hdr ∧ st'.px = st.px ∧ st'.py = st.py) := by
  induction l with
  | nil => intro k st V _ hV; exact ⟨st, rfl, hV, fun _ => rfl, by simp, fun _ => ⟨rfl, rfl, rfl⟩⟩
  | cons c l ih =>
    intro k st V hok hV
    obtain ⟨s1, a1, a2, a3, a4, a5, -⟩ := cutStep_spec (hok c (by simp)) dflt gethdr k st V hV
    obtain ⟨s2, b1, b2, b3, b4, b5⟩ := ih (k + 1) s1 _ (fun c' hc' => hok c' (by simp [hc'])) a2
    have hs1 : s1.cut.isSome = true ↔ st.cut.isSome = true ∨ Covers hs c := by
      by_cases hc : Covers hs c
      · simp [a4 hc, hc]
      · rw [a3 hc]; simp [hc]
    refine ⟨s2, ?_, b2, ?_, ?_, ?_⟩
    · rw [List.zipIdx_cons, List.foldlM_cons, a1, Res.ok_bind, b1]
    · intro hn
      rw [b3 fun c' hc' => hn c' (by simp [hc']), a3 (hn c (by simp))]
    · rw [b4, hs1]
      simp only [List.mem_cons, exists_eq_or_imp, or_assoc]
    · intro hst
      obtain ⟨h1, h2, h3⟩ := b5 (hs1.2 (Or.inl hst))
      obtain ⟨h4, h5, h6⟩ := a5 hst
      exact ⟨h1.trans h4, h2.trans h5, h3.trans h6⟩

/-! ### The properties -/

theorem pfold_some {hs : Nat} {dflt : Option K} {y x : Nat} (l : List (CutImg K)) (a : K) :
    l.foldl (pstep hs dflt y x) (some (some a)) = some (some a) := by
  induction l with
  | nil => rfl
  | cons c l ih =>
    rw [List.foldl_cons]
    rw [pstep_val, ih]

theorem pfold_none {hs : Nat} {y x : Nat} (hy : y < 2 * hs + 1) (hx : x < 2 * hs + 1) (l : List (CutImg K)) :
    ∀ v : Option (Option K), v.join = none →
      (l.foldl (pstep hs none y x) v).join = l.findSome? fun c => (boxPix hs y x c).join := by
  induction l with
  | nil => intro v hv; simpa using hv
  | cons c l ih =>
    intro v hv
    rw [List.foldl_cons, List.findSome?_cons]
    have hp : (pstep hs none y x v c).join = (boxPix hs y x c).join := by
      by_cases hc : Covers hs c
      · have : ∀ a, v ≠ some (some a) := by rintro a rfl; simp at hv
        cases v with
        | none => rw [pstep_none hc]; cases boxPix hs y x c <;> rfl
        | some o =>
          cases o with
          | some a => exact absurd rfl (this a)
          | none => rw [pstep_nan hc]; cases boxPix hs y x c <;> rfl
      · rw [pstep_not hc]
        have : boxPix hs y x c = none := by
          by_contra hb
          exact hc ⟨y, x, hy, hx, Option.isSome_iff_ne_none.2 hb⟩
        rw [this, hv]
        rfl
    cases hb : (boxPix hs y x c).join with
    | none =>
      simp only
      exact ih _ (by rw [hp, hb])
    | some a =>
      simp only
      rw [hb] at hp
      have : pstep hs none y x v c = some (some a) := by
        cases hq : pstep hs none y x v c with
        | none => rw [hq] at hp; simp at hp
        | some o => rw [hq] at hp; simp at hp; rw [hp]
      rw [this, pfold_some]
      rfl

/-- C142: with the default value NaN, `get_cutout` gives a square of `2*hs+1` pixels on a side. Each of its pixels is the first finite
value among those of the images at this position around the source, in the order of the images, and NaN if there is none. It returns
`true` when at least one image has a pixel in the square. -/
theorem C142_pixels_partial (imgs : List (CutImg K)) (aspix : Option K) (size : K) (gethdr : Bool) (hdr : Option HdrFrom) {hs : Nat}
    (hh : halfSize size aspix = .ok hs) (h : ∀ c ∈ imgs, CutOk hs c) (hne : imgs ≠ []) :
    ∃ b cut hd, getCutout imgs aspix size none gethdr hdr = .ok (b, cut, hd) ∧ (b = true ↔ ∃ c ∈ imgs, Covers hs c) ∧ cut.WF ∧
      cut.nx = 2 * hs + 1 ∧ cut.ny = 2 * hs + 1 ∧ ∀ y x, y < 2 * hs + 1 → x < 2 * hs + 1 →
        cut.at y x = some (imgs.findSome? fun c => (boxPix hs y x c).join) := by
  obtain ⟨st, s1, s2, -, s3, -⟩ := cutLoop_spec (hs := hs) none gethdr imgs 0 ⟨none, hdr, (hs : K) + 1, (hs : K) + 1⟩ (fun _ _ => none) h
    (fun _ _ => rfl)
  have hH : ∃ hd, cutHeader gethdr imgs.isEmpty st = Res.ok hd := by
    have hE : imgs.isEmpty = false := by simp[hne]
    unfold cutHeader
    rw [hE]
    cases gethdr with
    | false => exact ⟨none, rfl⟩
    | true =>
      simp only [if_true]
      cases st.hdr with
      | some s => exact ⟨_, rfl⟩
      | none => exact ⟨_, rfl⟩
  obtain ⟨hd, hH⟩ := hH
  unfold getCutout
  rw [hh, Res.ok_bind, s1, Res.ok_bind, hH, Res.ok_bind]
  simp only [Option.isSome_none, Bool.false_eq_true, false_or] at s3
  unfold CutHas at s2
  cases hc : st.cut with
  | none =>
    rw [hc] at s2 s3
    simp only at s2
    refine ⟨false, _, hd, rfl, by rw [← s3]; simp, fill_wf _ _ _, rfl, rfl, ?_⟩
    intro y x hy hx
    rw [fill_at, if_pos ⟨hy, hx⟩, ← pfold_none hy hx imgs none rfl, s2 y x]
    rfl
  | some cut =>
    rw [hc] at s2 s3
    simp only at s2
    obtain ⟨c1, c2, c3, c4⟩ := s2
    refine ⟨true, cut, hd, rfl, by rw [← s3]; simp, c1, c2, c3, ?_⟩
    intro y x hy hx
    obtain ⟨e1, e2⟩ := c4 y x hy hx
    rw [e1, ← pfold_none hy hx imgs none rfl]
    cases hv : imgs.foldl (pstep hs none y x) none with
    | none => exact absurd hv e2
    | some o => rfl

/-- C142: for any default value, when one image only covers the source, each pixel is that of this image, or the default value outside of it. -/
theorem C142_single (l1 l2 : List (CutImg K)) (c : CutImg K) (aspix : Option K) (size : K) (dflt : Option K) (gethdr : Bool) (hdr : Option HdrFrom)
    {hs : Nat} (hh : halfSize size aspix = .ok hs) (h : ∀ c' ∈ l1 ++ c :: l2, CutOk hs c') (h1 : ∀ c' ∈ l1, ¬ Covers hs c') (hc : Covers hs c)
    (h2 : ∀ c' ∈ l2, ¬ Covers hs c') :
    ∃ cut hd, getCutout (l1 ++ c :: l2) aspix size dflt gethdr hdr = .ok (true, cut, hd) ∧ cut.WF ∧ cut.nx = 2 * hs + 1 ∧ cut.ny = 2 * hs + 1 ∧
      ∀ y x, y < 2 * hs + 1 → x < 2 * hs + 1 → cut.at y x = some ((boxPix hs y x c).getD dflt) := by
  obtain ⟨st, s1, s2, -, s3, -⟩ := cutLoop_spec (hs := hs) dflt gethdr (l1 ++ c :: l2) 0 ⟨none, hdr, (hs : K) + 1, (hs : K) + 1⟩ (fun _ _ => none) h
    (fun _ _ => rfl)
  have hH : ∃ hd, cutHeader gethdr (l1 ++ c :: l2).isEmpty st = Res.ok hd := by
    have hE : (l1 ++ c :: l2).isEmpty = false := by simp
    unfold cutHeader
    rw [hE]
    cases gethdr with
    | false => exact ⟨none, rfl⟩
    | true =>
      simp only [if_true]
      cases st.hdr with
      | some s => exact ⟨_, rfl⟩
      | none => exact ⟨_, rfl⟩
  obtain ⟨hd, hH⟩ := hH
  unfold getCutout
  rw [hh, Res.ok_bind, s1, Res.ok_bind, hH, Res.ok_bind]
  have hsome : st.cut.isSome = true := s3.2 (Or.inr ⟨c, by simp, hc⟩)
  obtain ⟨cut, hcut⟩ := Option.isSome_iff_exists.1 hsome
  unfold CutHas at s2
  rw [hcut] at s2
  simp only [hcut] at s2 ⊢
  obtain ⟨c1, c2, c3, c4⟩ := s2
  refine ⟨cut, hd, rfl, c1, c2, c3, ?_⟩
  intro y x hy hx
  rw [(c4 y x hy hx).1]
  have hskip : ∀ (l : List (CutImg K)) (v : Option (Option K)), (∀ c' ∈ l, ¬ Covers hs c') → l.foldl (pstep hs dflt y x) v = v := by
    intro l
    induction l with
    | nil => intro v _; rfl
    | cons a l ih =>
      intro v hl
      rw [List.foldl_cons, pstep_not (hl a (by simp)), ih _ fun c' hc' => hl c' (by simp [hc'])]
  rw [List.foldl_append, hskip l1 none h1, List.foldl_cons, hskip l2 _ h2, pstep_none hc]

/-- C142: when the header is asked for and the source is covered, the header is that of the first image that covers it, with the size of the
cutout, and with the reference pixel at the position of the source in the cutout: the pixel `(y,x)` of the cutout is the pixel
`(iy0+y, ix0+x)` of this image, where the source is at the column `dxc` and the row `dyc`, and the pixels of headers are counted from 1. -/
theorem C142_header_partial (l1 l2 : List (CutImg K)) (c : CutImg K) (aspix : Option K) (size : K) (dflt : Option K) (hdr : Option HdrFrom)
    {hs : Nat} (hh : halfSize size aspix = .ok hs) (h : ∀ c' ∈ l1 ++ c :: l2, CutOk hs c') (h1 : ∀ c' ∈ l1, ¬ Covers hs c') (hc : Covers hs c) :
    ∃ cut hd, getCutout (l1 ++ c :: l2) aspix size dflt true hdr = .ok (true, cut, some hd) ∧ hd.src = .image l1.length ∧
      hd.naxis1 = cut.ny ∧ hd.naxis2 = cut.nx ∧
      hd.crpix1 = c.dxc - ((roundI c.dxc - hs : Int) : K) + 1 ∧ hd.crpix2 = c.dyc - ((roundI c.dyc - hs : Int) : K) + 1 := by
  obtain ⟨s1, a1, a2, a3, -, -⟩ := cutLoop_spec (hs := hs) dflt true l1 0 ⟨none, hdr, (hs : K) + 1, (hs : K) + 1⟩ (fun _ _ => none)
    (fun c' hc' => h c' (by simp [hc'])) (fun _ _ => rfl)
  have e1 := a3 h1
  subst e1
  obtain ⟨s2, b1, b2, -, b3, -, b4⟩ := cutStep_spec (h c (by simp)) dflt true l1.length _ _ a2
  obtain ⟨p1, p2, p3⟩ := b4 hc rfl
  obtain ⟨s3, d1, d2, -, d3, d4⟩ := cutLoop_spec (hs := hs) dflt true l2 (l1.length + 1) s2 _ (fun c' hc' => h c' (by simp [hc'])) b2
  obtain ⟨q1, q2, q3⟩ := d4 (b3 hc)
  have hsome : s3.cut.isSome = true := d3.2 (Or.inl (b3 hc))
  obtain ⟨cut, hcut⟩ := Option.isSome_iff_exists.1 hsome
  have hloop : ((l1 ++ c :: l2).zipIdx 0).foldlM (cutStep hs dflt true) ⟨none, hdr, (hs : K) + 1, (hs : K) + 1⟩ = .ok s3 := by
    rw [List.zipIdx_append, List.foldlM_append, a1, Res.ok_bind, List.zipIdx_cons, List.foldlM_cons, Nat.zero_add, b1, Res.ok_bind, d1]
  unfold getCutout
  rw [hh, Res.ok_bind, hloop, Res.ok_bind]
  unfold cutHeader
  simp only [if_true, q1, p1, hcut, Option.map_some, Option.getD_some]
  refine ⟨cut, ⟨.image l1.length, cut.ny, cut.nx, s3.px, s3.py⟩, rfl, rfl, rfl, rfl, ?_, ?_⟩
  · rw [q2, p2]; push_cast; ring
  · rw [q3, p3]; push_cast; ring

/-- C142: the cutout is at least as large as asked for: the `2*hs` pixels around the central one are not smaller than `size` together. -/
theorem C142_size [IsStrictOrderedRing K] (size a : K) (ha : 0 < a) {hs : Nat} (hh : halfSize size (some a) = .ok hs) : 1 ≤ hs ∧ size ≤ 2 * hs * a := by
  unfold halfSize at hh
  simp only [if_neg ha.ne'] at hh
  obtain ⟨z, h1, h2⟩ := Res.bind_eq_ok.1 hh
  unfold s64 at h1
  split at h1
  · cases h1
    cases h2
    have hm : (1 : Int) ≤ max 1 ⌈1 / 2 * size / a⌉ := le_max_left _ _
    refine ⟨by omega, ?_⟩
    have hz : (((max 1 ⌈1 / 2 * size / a⌉).toNat : Nat) : K) = ((max 1 ⌈1 / 2 * size / a⌉ : Int) : K) := by
      rw [← Int.cast_natCast, Int.toNat_of_nonneg (by omega)]
    rw [hz]
    have h3 : 1 / 2 * size / a ≤ ((max 1 ⌈1 / 2 * size / a⌉ : Int) : K) :=
      (Int.le_ceil _).trans (Int.cast_le.2 (le_max_right _ _))
    rw [div_le_iff₀ ha] at h3
    linarith
  · cases h1

/-! ### Where C142 fails -/

/-- C142 fails for a default value that is finite: a pixel outside of the first image keeps it, though the second image has a value there. -/
theorem C142_default_refuted : getCutout (K := ℚ) [⟨⟨1, 2, [some 1, some 2]⟩, 0, 0⟩, ⟨⟨3, 3, [some 1, some 2, some 3, some 4, some 5, some 6, some 7, some 8, some 9]⟩, 1, 1⟩]
      (some 1) 1 (some 0) false none = .ok (true, ⟨3, 3, [some 0, some 0, some 0, some 0, some 1, some 2, some 0, some 0, some 0]⟩, none) ∧
    getCutout (K := ℚ) [⟨⟨1, 2, [some 1, some 2]⟩, 0, 0⟩, ⟨⟨3, 3, [some 1, some 2, some 3, some 4, some 5, some 6, some 7, some 8, some 9]⟩, 1, 1⟩]
      (some 1) 1 none false none = .ok (true, ⟨3, 3, [some 1, some 2, some 3, some 4, some 1, some 2, some 7, some 8, some 9]⟩, none) := by
  decide +kernel

/-- C142 fails for a source that is not covered: the header has no pixels while the cutout has nine; and a header which is not empty is not replaced. -/
theorem C142_header_refuted : getCutout (K := ℚ) [⟨⟨1, 1, [some 1]⟩, 9, 9⟩] (some 1) 1 none true none =
      .ok (false, ⟨3, 3, List.replicate 9 none⟩, some ⟨.image 0, 0, 0, 2, 2⟩) ∧
    getCutout (K := ℚ) [⟨⟨1, 1, [some 1]⟩, 9, 9⟩] (some 1) 1 none true (some .caller) =
      .ok (false, ⟨3, 3, List.replicate 9 none⟩, some ⟨.caller, 0, 0, 2, 2⟩) := by decide +kernel

/-- C142 fails without images: the size of the pixels is not known and the conversion of the size of the box is undefined. -/
theorem C142_empty_refuted (size : K) (dflt : Option K) (gethdr : Bool) (hdr : Option HdrFrom) : getCutout [] none size dflt gethdr hdr = .ub := rfl

/-! ### Cases that meet the hypotheses -/

example : CutOk 1 (⟨⟨1, 2, [some 1, some 2]⟩, 0, 0⟩ : CutImg ℚ) :=
  ⟨by decide, by decide, by decide, by decide +kernel, by decide +kernel, by decide⟩

example : Covers 1 (⟨⟨1, 2, [some 1, some 2]⟩, 0, 0⟩ : CutImg ℚ) := ⟨1, 1, by decide, by decide, by decide +kernel⟩

example : halfSize (5 : ℚ) (some 2) = .ok 2 := by decide +kernel

end Verif.Astro
