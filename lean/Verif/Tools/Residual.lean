import Verif.Tools.ExtractRes
import Verif.Astro.Regrid
import Verif.Find.FindProps
import Mathlib.Data.Rat.Floor
/-!
# `pixfit-residual` (C206)

The numbers are those of an ordered field, without rounding; NaN is `none`. `translate(psf, dy, dx)` is an arbitrary function of the two fractions. The positions are those of the WCS, counted from
zero.
-/
namespace Verif.Residual
open Verif Verif.Astro Finset

variable {K : Type} [Field K] [LinearOrder K] [IsStrictOrderedRing K] [FloorRing K]

/-! ### Model -/

/-- a map: its band, its image, `hsize`, `fconv`, the translated PSF, and the positions of the sources (lines, columns) -/
structure Map (K : Type) (n : Nat) where
  band : String
  ny : Nat
  nx : Nat
  raw : List (Option K)
  h : Nat
  fconv : K
  psf : K → K → List K
  pos : Fin n → Option K × Option K

/-- the catalogue: bands, fluxes by band, and `lir/lir_err` -/
structure Cat (K : Type) (n : Nat) where
  bands : List String
  flux : Fin n → Nat → Option K
  sn : Fin n → Option K

/-- `is_finite(flux(_,b)) && sel && x >= -hsize && x < img.dims[1]+hsize && y >= -hsize && y < img.dims[0]+hsize` (`pixfit-residual.cpp:31-36,57-60`): no comparison with NaN is true -/
def selected {n : Nat} (cat : Cat K n) (smin : Option K) (m : Map K n) (b : Nat) (i : Fin n) : Bool :=
  (cat.flux i b).isSome &&
  (match smin, cat.sn i with
    | none, _ => true
    | some t, some a => t < a
    | some _, none => false) &&
  (match (m.pos i).2 with | some x => -(m.h : K) ≤ x && x < (m.nx : K) + m.h | none => false) &&
  (match (m.pos i).1 with | some y => -(m.h : K) ≤ y && y < (m.ny : K) + m.h | none => false)

/-- `ix = round(x)`, `dx = x - ix` and the translated PSF (`pixfit-residual.cpp:62-65,69`) -/
def place {n : Nat} (m : Map K n) (i : Fin n) : ExtractAper.Src K :=
  let y := (m.pos i).1.getD 0
  let x := (m.pos i).2.getD 0
  ⟨y, x, roundI y, roundI x, [], m.psf (y - roundI y) (x - roundI x)⟩

/-- the residual of a map (`pixfit-residual.cpp:56-75`) -/
def one {n : Nat} (cat : Cat K n) (smin : Option K) (m : Map K n) (b : Nat) : Res (List (Option K)) :=
  ExtractRes.addSrcs m.ny m.nx m.h (place m) (fun i => - ((cat.flux i b).getD 0 / m.fconv)) ((List.finRange n).filter (selected cat smin m b)) m.raw

/-- the files that are written (`pixfit-residual.cpp:38-79`) -/
def run {n : Nat} (cat : Cat K n) (smin : Option K) : List (Map K n) → Res (List (String × List (Option K)))
  | [] => .ok []
  | m :: ms => do
    match Find.whereFirst (cat.bands.map (· == m.band)) with
    | none => run cat smin ms
    | some b => do
      let img ← one cat smin m b
      let rest ← run cat smin ms
      .ok ((m.band ++ "-fullres.fits", img) :: rest)

/-! ### Specification -/

/-- the source has a flux, and the signal to noise ratio that was asked for -/
def Wanted {n : Nat} (cat : Cat K n) (smin : Option K) (b : Nat) (i : Fin n) : Prop :=
  (cat.flux i b).isSome ∧ ∀ t, smin = some t → ∃ a, cat.sn i = some a ∧ t < a

/-- the image of a source on a map: the PSF moved to the position of the source, times the flux in the units of the map; zero if the position is not known -/
noncomputable def image {n : Nat} (cat : Cat K n) (m : Map K n) (b : Nat) (i : Fin n) (r c : Nat) : K :=
  match m.pos i with
  | (some y, some x) => (cat.flux i b).getD 0 / m.fconv * ExtractAper.stamp (m.psf (y - roundI y) (x - roundI x)) 0 (roundI y) (roundI x) m.h r c
  | _ => 0

/-- the image is complete, its sizes are reasonable, and the translated PSF has the size of the PSF -/
structure Good {n : Nat} (m : Map K n) : Prop where
  ny : 0 < m.ny ∧ m.ny < 2 ^ 30
  nx : 0 < m.nx ∧ m.nx < 2 ^ 30
  h : m.h < 2 ^ 20
  raw : m.raw.length = m.ny * m.nx
  psf : ∀ dy dx, (m.psf dy dx).length = (2 * m.h + 1) * (2 * m.h + 1)

/-- less than half a pixel before the limit of the selection -/
def Gap (h : Nat) (x : K) : Prop := -(h : K) - 1 / 2 < x ∧ x < -(h : K)

/-! ### Helpers -/

theorem round_ge {h : Nat} {x : K} (hx : -(h : K) ≤ x) : -(h : Int) ≤ roundI x := by
  unfold roundI
  split
  · rename_i h0
    have : (0 : Int) ≤ ⌊x + 1 / 2⌋ := Int.le_floor.2 (by push_cast; linarith)
    omega
  · have h1 : ((-(h : Int) - 1 : Int) : K) < x - 1 / 2 := by push_cast; linarith
    have := Int.lt_ceil.2 h1
    omega

theorem round_le {N : Nat} {x : K} (hx : x < N) : roundI x ≤ N := by
  unfold roundI
  split
  · have : ⌊x + 1 / 2⌋ < (N : Int) + 1 := Int.floor_lt.2 (by push_cast; linarith)
    omega
  · rename_i h0
    have h0 := not_le.1 h0
    have : ⌈x - 1 / 2⌉ ≤ (0 : Int) := Int.ceil_le.2 (by push_cast; linarith)
    omega

theorem round_ge_of_ge {N : Nat} {x : K} (hx : (N : K) ≤ x) : (N : Int) ≤ roundI x := by
  unfold roundI
  have hN : (0 : K) ≤ N := Nat.cast_nonneg N
  rw [if_pos (by linarith)]
  exact Int.le_floor.2 (by push_cast; linarith)

theorem round_lt_of_le {h : Nat} {x : K} (hx : x ≤ -(h : K) - 1 / 2) : roundI x < -(h : Int) := by
  unfold roundI
  have hN : (0 : K) ≤ h := Nat.cast_nonneg h
  rw [if_neg (by push Not; linarith)]
  have : ⌈x - 1 / 2⌉ ≤ -(h : Int) - 1 := Int.ceil_le.2 (by push_cast; linarith)
  omega

omit [LinearOrder K] [IsStrictOrderedRing K] [FloorRing K] in
theorem addSrcs_congr {n : Nat} (ny nx h : Nat) (src src' : Fin n → ExtractAper.Src K) (f : Fin n → K) (js : List (Fin n)) (hs : ∀ j ∈ js, (src j).iy = (src' j).iy ∧ (src j).ix = (src' j).ix ∧ (src j).psf = (src' j).psf)
    (m : List (Option K)) : ExtractRes.addSrcs ny nx h src f js m = ExtractRes.addSrcs ny nx h src' f js m := by
  induction js generalizing m with
  | nil => rfl
  | cons j js ih =>
    obtain ⟨h1, h2, h3⟩ := hs j (by simp)
    have ih := ih fun k hk => hs k (by simp [hk])
    simp only [ExtractRes.addSrcs, h1, h2, h3, ih]

theorem selected_iff {n : Nat} (cat : Cat K n) (smin : Option K) (m : Map K n) (b : Nat) (i : Fin n) : selected cat smin m b i = true ↔
    Wanted cat smin b i ∧ ∃ y x, m.pos i = (some y, some x) ∧ -(m.h : K) ≤ x ∧ x < (m.nx : K) + m.h ∧ -(m.h : K) ≤ y ∧ y < (m.ny : K) + m.h := by
  unfold selected Wanted
  rcases m.pos i with ⟨y, x⟩
  cases y <;> cases x <;> cases smin <;> cases cat.sn i <;> simp [and_assoc]

/-- one map -/
theorem one_ok {n : Nat} (cat : Cat K n) (smin : Option K) (m : Map K n) (hm : Good m) (b : Nat)
    (hg : ∀ i y x, Wanted cat smin b i → m.pos i = (some y, some x) → ¬ Gap m.h y ∧ ¬ Gap m.h x) :
    ∃ l, one cat smin m b = .ok l ∧ l.length = m.ny * m.nx ∧ ∀ r c, r < m.ny → c < m.nx →
      ∀ S : Finset (Fin n), (∀ i, i ∈ S ↔ Wanted cat smin b i) → ExtractRes.px m.nx l r c = (ExtractRes.px m.nx m.raw r c).map fun v => v - ∑ i ∈ S, image cat m b i r c := by
  have hny := hm.ny
  have hnx := hm.nx
  have hh := hm.h
  let src' : Fin n → ExtractAper.Src K := fun i => if selected cat smin m b i then { place m i with ap := List.replicate ((2 * m.h + 1) * (2 * m.h + 1)) true } else
    ⟨0, 0, 0, 0, List.replicate ((2 * m.h + 1) * (2 * m.h + 1)) true, List.replicate ((2 * m.h + 1) * (2 * m.h + 1)) 0⟩
  have himg : m.ny * m.nx < 2 ^ 63 := calc
    m.ny * m.nx ≤ 2 ^ 30 * 2 ^ 30 := Nat.mul_le_mul hny.2.le hnx.2.le
    _ < 2 ^ 63 := by norm_num
  have hok : ∀ j, ExtractAper.Ok m.ny m.nx m.h (src' j) := by
    intro j
    dsimp only [src']
    split
    · rename_i hs
      obtain ⟨-, y, x, hp, x1, x2, y1, y2⟩ := (selected_iff cat smin m b j).1 hs
      have e1 := round_ge x1
      have e2 : roundI x ≤ ((m.nx + m.h : Nat) : Int) := round_le (by push_cast; exact x2)
      have e3 := round_ge y1
      have e4 : roundI y ≤ ((m.ny + m.h : Nat) : Int) := round_le (by push_cast; exact y2)
      refine ⟨by simp, hm.psf _ _, hh, himg, by omega, by omega, ?_, ?_⟩
      · simp only [place, hp, Option.getD_some]; rw [abs_lt]; omega
      · simp only [place, hp, Option.getD_some]; rw [abs_lt]; omega
    · exact ⟨by simp, by simp, hh, himg, by omega, by omega, by norm_num, by norm_num⟩
  obtain ⟨l, e, hl, hv⟩ := ExtractRes.addSrcs_ok m.ny m.nx m.h hny.1 hnx.1 src' (fun i => - ((cat.flux i b).getD 0 / m.fconv)) hok ((List.finRange n).filter (selected cat smin m b)) m.raw hm.raw
  refine ⟨l, ?_, hl, fun r c hr hc S hS => ?_⟩
  · unfold one
    rw [← e]
    apply addSrcs_congr
    intro j hj
    have hj := (List.mem_filter.1 hj).2
    simp only [src', hj, if_true, and_self]
  · rw [hv r c hr hc]
    congr 1
    funext v
    rw [sub_eq_add_neg, ExtractRes.sum_finRange_filter, ← Finset.sum_neg_distrib]
    congr 1
    classical
    rw [show S = Finset.univ.filter (fun i => i ∈ S) by ext; simp, Finset.sum_filter]
    apply Finset.sum_congr rfl
    intro i _
    by_cases hs : selected cat smin m b i = true
    · obtain ⟨hw, y, x, hp, -⟩ := (selected_iff cat smin m b i).1 hs
      rw [if_pos hs, if_pos ((hS i).2 hw)]
      simp only [src', hs, if_true, place, image, hp, Option.getD_some]
      ring
    · rw [if_neg hs]
      by_cases hw : Wanted cat smin b i
      · rw [if_pos ((hS i).2 hw)]
        unfold image
        split
        · rename_i y x hp
          rw [ExtractAper.stamp, if_neg, mul_zero, neg_zero]
          rintro ⟨h1, h2⟩
          apply hs
          rw [abs_le] at h1 h2
          obtain ⟨gy, gx⟩ := hg i y x hw hp
          refine (selected_iff cat smin m b i).2 ⟨hw, y, x, hp, ?_, ?_, ?_, ?_⟩
          · by_contra hc'
            have := round_lt_of_le (not_lt.1 fun h => gx ⟨h, not_le.1 hc'⟩)
            omega
          · by_contra hc'
            have hc' := not_lt.1 hc'
            have := round_ge_of_ge (N := m.nx + m.h) (by push_cast; exact hc')
            omega
          · by_contra hc'
            have := round_lt_of_le (not_lt.1 fun h => gy ⟨h, not_le.1 hc'⟩)
            omega
          · by_contra hc'
            have hc' := not_lt.1 hc'
            have := round_ge_of_ge (N := m.ny + m.h) (by push_cast; exact hc')
            omega
        · simp
      · rw [if_neg fun h => hw ((hS i).1 h)]

/-! ### C206 -/

open Classical in
/-- The residual of a map is the map without the images of the sources of the catalogue that have a flux in the (first) band of this name and the signal to noise ratio that was asked for; a pixel
that is not finite remains so. Each map whose band is in the catalogue gives a file, in the order of the maps, and the other maps give none. (Full statement: for all positions. Here no such source is less than half a
pixel before the lower limit of the selection, in the lines or in the columns.) -/
theorem C206_residual_partial {n : Nat} (cat : Cat K n) (smin : Option K) (maps : List (Map K n)) (hm : ∀ m ∈ maps, Good m)
    (hg : ∀ m ∈ maps, ∀ b i y x, Wanted cat smin b i → m.pos i = (some y, some x) → ¬ Gap m.h y ∧ ¬ Gap m.h x) :
    ∃ out, run cat smin maps = .ok out ∧ List.Forall₂ (fun m f => f.1 = m.band ++ "-fullres.fits" ∧ f.2.length = m.ny * m.nx ∧
      ∃ b, cat.bands[b]? = some m.band ∧ (∀ b' < b, cat.bands[b']? ≠ some m.band) ∧ ∀ r c, r < m.ny → c < m.nx →
        ExtractRes.px m.nx f.2 r c = (ExtractRes.px m.nx m.raw r c).map fun v => v - ∑ i with Wanted cat smin b i, image cat m b i r c)
      (maps.filter fun m => m.band ∈ cat.bands) out := by
  induction maps with
  | nil => exact ⟨[], rfl, .nil⟩
  | cons m ms ih =>
    obtain ⟨out, e, ho⟩ := ih (fun k hk => hm k (by simp [hk])) (fun k hk => hg k (by simp [hk]))
    have hw := Find.C17_where_first (cat.bands.map (· == m.band))
    simp only [run]
    cases hf : Find.whereFirst (cat.bands.map (· == m.band)) with
    | none =>
      rw [hf] at hw
      have hnot : m.band ∉ cat.bands := by
        intro hc
        refine hw.2.1 rfl (List.mem_map.2 ⟨_, hc, by simp⟩)
      simp only [e]
      refine ⟨out, rfl, ?_⟩
      rw [List.filter_cons_of_neg (by simpa using hnot)]
      exact ho
    | some b =>
      rw [hf] at hw
      obtain ⟨h1, h2⟩ := (hw.1 b).1 rfl
      have hb : cat.bands[b]? = some m.band := by
        rw [List.getElem?_map] at h1
        cases hk : cat.bands[b]? with
        | none => simp [hk] at h1
        | some s => simp [hk] at h1; rw [h1]
      have hb' : ∀ b' < b, cat.bands[b']? ≠ some m.band := by
        intro b' hlt hc
        have := h2 b' hlt
        simp [hc] at this
      obtain ⟨l, e1, hl, hv⟩ := one_ok cat smin m (hm m (by simp)) b (fun i y x hw hp => hg m (by simp) b i y x hw hp)
      simp only [e1, e, Res.ok_bind]
      refine ⟨_, rfl, ?_⟩
      rw [List.filter_cons_of_pos (by simpa using List.mem_of_getElem? hb)]
      refine .cons ⟨rfl, hl, b, hb, hb', fun r c hr hc => ?_⟩ ho
      exact hv r c hr hc _ (by intro i; simp)

/-- one pixel, and a PSF of three by three pixels that does not move -/
def mapEx (x : Rat) : Map Rat 2 := ⟨"K", 1, 1, [some 9], 1, 2, fun _ _ => [0, 1, 0, 1, 4, 1, 0, 1, 0], ![(some 0, some x), (none, none)]⟩
def catEx : Cat Rat 2 := ⟨["H", "K"], fun i b => if i = 0 ∧ b = 1 then some 4 else none, fun _ => some 5⟩
theorem mapEx_good (x : Rat) : Good (mapEx x) := ⟨by simp [mapEx], by simp [mapEx], by simp [mapEx], by simp [mapEx], fun _ _ => by simp [mapEx]⟩
example : run catEx (some 3) [mapEx 0, { mapEx 0 with band := "J" }, mapEx (-1)] = .ok [("K-fullres.fits", [some 1]), ("K-fullres.fits", [some 7])] := by decide +kernel
example : ¬ Gap 1 (-1 : Rat) := by unfold Gap; norm_num

/-- A source less than half a pixel before the limit of the selection is kept in the map, although its image reaches the map: here the last column of the PSF is on the pixel of the map. -/
theorem C206_limit_refuted : Wanted catEx none 1 0 ∧ image catEx (mapEx (-5 / 4)) 1 0 0 0 = 2 ∧ run catEx none [mapEx (-5 / 4)] = .ok [("K-fullres.fits", [some 9])] := by
  refine ⟨⟨by decide, by simp⟩, ?_, by decide +kernel⟩
  have h1 : roundI (-5 / 4 : Rat) = -1 := by decide +kernel
  have h0 : roundI (0 : Rat) = 0 := by decide +kernel
  show (4 : Rat) / 2 * ExtractAper.stamp [0, 1, 0, 1, 4, 1, 0, 1, 0] 0 (roundI (0 : Rat)) (roundI (-5 / 4 : Rat)) 1 0 0 = 2
  rw [h1, h0]
  decide +kernel

end Verif.Residual
