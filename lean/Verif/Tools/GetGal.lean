import Verif.Basic
import Verif.Astro.Qstack
import Mathlib.Algebra.Order.Floor.Ring
import Mathlib.Algebra.Order.Archimedean.Basic
import Mathlib.Data.List.Nodup
import Mathlib.Data.Rat.Floor
import Mathlib.Tactic.Ring
import Mathlib.Tactic.Linarith
import Mathlib.Tactic.LinearCombination
/-!
# `getgal` (C217, C218)

Reading the catalogue and the list of images (C190 for a list of the same format), the data unit of the image and the other keywords of the header are not modelled. The cutouts of an image are those of `qstack` (C118), given as
a function of the size.
-/
namespace Verif.GetGal
open Verif

variable {K : Type} [Field K] [LinearOrder K] [FloorRing K] {P : Type}

/-! ### Model -/

/-- the cutout of a source in an image: its index, the offsets `dx` and `dy`, the pixels -/
structure Cut (K P : Type) where
  src : Nat
  dx : K
  dy : K
  px : P

/-- an image of the list: its file, its short name, the size of its pixels (`none`: unknown), its zero point (`none`: not finite), and the cutouts of half size `h` of the sources that it covers -/
structure Image (K P : Type) where
  file : List Char
  short : List Char
  aspix : Option K
  zero : Option K
  cuts : Nat → List (Cut K P)

/-- the options: the list of bands, the radius (`none`: not given), the sizes, `no_zero_point`, and the directory of the output -/
structure Opts (K : Type) where
  bands : List (List Char)
  radius : Option K
  sizes : List Nat
  noZero : Bool
  out : List Char

/-- a file that is written: its name, the number of the image and the source, the half size, `CRPIX1` and `CRPIX2`, the pixels (`none`: all NaN) and the factor applied to them; `CRVAL1` and `CRVAL2`
are the position of the source -/
structure File (K P : Type) where
  name : List Char
  img : Nat
  src : Nat
  h : Nat
  crpix : K × K
  px : Option (P × K)

/-- how the program ends: at the end, with an error, or stopped by an index out of range -/
inductive Status where
  | done
  | error
  | abort
deriving DecidableEq

/-- the half size (`getgal.cpp:236-255`); `none` is an index out of range -/
def halfSize (o : Opts K) (img : Image K P) (ib : Nat) : Option Nat :=
  match o.radius with
  | some r =>
    match img.aspix with
    | some a => some (if ⌈r / a⌉ < 10 then 10 else ⌈r / a⌉.toNat)
    | none => some 50
  | none => if 1 < o.sizes.length then o.sizes[ib]? else if o.sizes.length = 1 then o.sizes[0]? else some 50

/-- the factor applied to the pixels (`getgal.cpp:268-272`); `pow z` is `e10(0.4*(23.9 - z))` -/
def factor (pow : K → K) (o : Opts K) (img : Image K P) : K :=
  if o.noZero then 1 else match img.zero with
    | some z => pow z
    | none => 1

/-- the file name (`getgal.cpp:287,321`) -/
def fileName (o : Opts K) (names : List (List Char)) (img : Image K P) (s : Nat) : List Char := o.out ++ names.getD s [] ++ img.short ++ ".fits".toList

/-- the files of an image (`getgal.cpp:274-332`): the sources that it covers, then the others -/
def filesOf (pow : K → K) (o : Opts K) (names : List (List Char)) (k : Nat) (img : Image K P) (h : Nat) : List (File K P) :=
  let cuts := img.cuts h
  (cuts.map fun c => ⟨fileName o names img c.src, k, c.src, h, (h + 1 + c.dx, h + 1 + c.dy), some (c.px, factor pow o img)⟩) ++
    ((List.range names.length).filter fun s => !(cuts.map (·.src)).contains s).map fun s => ⟨fileName o names img s, k, s, h, (h + 1, h + 1), none⟩

/-- the image is used (`getgal.cpp:202-207`) -/
def used (o : Opts K) (img : Image K P) : Bool := o.bands.isEmpty || o.bands.contains img.short

/-- the loop over the images (`getgal.cpp:201-333`): `k` is the number of the image and `ib` the number of images used before -/
def loop (pow : K → K) (o : Opts K) (names : List (List Char)) : List (Image K P) → Nat → Nat → List (File K P) × Status
  | [], _, _ => ([], .done)
  | img :: rest, k, ib =>
    if used o img then
      let ib := ib + 1
      match halfSize o img ib with
      | none => ([], .abort)
      | some h =>
        let fs := filesOf pow o names k img h
        if fs.any fun f => f.name == img.file then (fs.takeWhile fun f => f.name != img.file, .error)
        else
          let r := loop pow o names rest (k + 1) ib
          (fs ++ r.1, r.2)
    else loop pow o names rest (k + 1) ib

/-- the files written by the tool, in order, and how it ends (`getgal.cpp:184-333`) -/
def run (pow : K → K) (o : Opts K) (names : List (List Char)) (imgs : List (Image K P)) : List (File K P) × Status :=
  if 1 < o.sizes.length ∧ 1 < imgs.length ∧ o.sizes.length ≠ imgs.length then ([], .error) else loop pow o names imgs 0 0

/-! ### Helpers -/

/-- the cutouts are those of different sources of the catalogue (C118) -/
def Valid (n : Nat) (img : Image K P) : Prop := ∀ h, ((img.cuts h).map (·.src)).Nodup ∧ ∀ c ∈ img.cuts h, c.src < n

omit [LinearOrder K] [FloorRing K] in
theorem filesOf_src (pow : K → K) (o : Opts K) (names : List (List Char)) (k : Nat) (img : Image K P) (h : Nat) (hv : Valid names.length img) :
    ((filesOf pow o names k img h).map (·.src)).Perm (List.range names.length) := by
  obtain ⟨h1, h2⟩ := hv h
  unfold filesOf
  simp only [List.map_append, List.map_map, Function.comp_def, List.map_id']
  refine (List.perm_ext_iff_of_nodup ?_ List.nodup_range).2 fun s => ?_
  · rw [List.nodup_append]
    refine ⟨h1, List.nodup_range.filter _, ?_⟩
    intro a ha b hb e
    subst e
    have := (List.mem_filter.1 hb).2
    simp only [Bool.not_eq_true', ← Bool.not_eq_true, List.contains_iff_mem] at this
    exact this ha
  · rw [List.mem_append, List.mem_filter, List.mem_range]
    constructor
    · rintro (h | ⟨h, -⟩)
      · obtain ⟨c, hc, rfl⟩ := List.mem_map.1 h
        exact h2 c hc
      · exact h
    · intro hs
      by_cases hm : s ∈ (img.cuts h).map (·.src)
      · exact Or.inl hm
      · exact Or.inr ⟨hs, by simp only [Bool.not_eq_true', ← Bool.not_eq_true, List.contains_iff_mem]; exact hm⟩

/-- the size asked for: from the radius, the size of this image, the one size given, or 50 -/
def wanted (o : Opts K) (img : Image K P) (k : Nat) : Nat :=
  match o.radius, img.aspix, o.sizes with
  | some r, some a, _ => max 10 ⌈r / a⌉.toNat
  | some _, none, _ => 50
  | none, _, [] => 50
  | none, _, [h] => h
  | none, _, l => l.getD k 0

theorem halfSize_eq (o : Opts K) (img : Image K P) (k ib : Nat) (hs : o.radius.isSome ∨ o.sizes.length ≤ 1) : halfSize o img ib = some (wanted o img k) := by
  unfold halfSize wanted
  rcases o with ⟨b, r, l, z, out⟩
  dsimp only at hs ⊢
  cases r with
  | some r =>
    cases img.aspix with
    | none => rfl
    | some a =>
      dsimp only
      congr 1
      split <;> omega
  | none =>
    have hl : l.length ≤ 1 := by simpa using hs
    match l with
    | [] => cases img.aspix <;> rfl
    | [h] => cases img.aspix <;> rfl
    | _ :: _ :: _ => simp at hl

theorem loop_mem (pow : K → K) (o : Opts K) (names : List (List Char)) (hs : o.radius.isSome ∨ o.sizes.length ≤ 1) : ∀ (imgs : List (Image K P)) (k ib : Nat)
    (_ : ∀ img ∈ imgs, ∀ s, fileName o names img s ≠ img.file), (loop pow o names imgs k ib).2 = .done ∧
    (loop pow o names imgs k ib).1 = ((imgs.zipIdx k).filter fun p => used o p.1).flatMap fun p => filesOf pow o names p.2 p.1 (wanted o p.1 p.2) := by
  intro imgs
  induction imgs with
  | nil => intro k ib _; exact ⟨rfl, rfl⟩
  | cons img rest ih =>
    intro k ib hn
    rw [List.zipIdx_cons, loop]
    by_cases hu : used o img = true
    · rw [if_pos hu, List.filter_cons_of_pos (by exact hu), List.flatMap_cons]
      simp only
      rw [halfSize_eq o img k (ib + 1) hs]
      dsimp only
      rw [if_neg]
      · obtain ⟨i1, i2⟩ := ih (k + 1) (ib + 1) fun i hi => hn i (by simp [hi])
        exact ⟨i1, by rw [i2]⟩
      · rw [Bool.not_eq_true, List.any_eq_false]
        intro f hf
        have : ∃ s, f.name = fileName o names img s := by
          unfold filesOf at hf
          rcases List.mem_append.1 hf with h | h
          · obtain ⟨c, -, rfl⟩ := List.mem_map.1 h; exact ⟨_, rfl⟩
          · obtain ⟨c, -, rfl⟩ := List.mem_map.1 h; exact ⟨_, rfl⟩
        obtain ⟨s, e⟩ := this
        rw [e, beq_iff_eq]
        exact hn img (by simp) s
    · rw [if_neg hu, List.filter_cons_of_neg (by exact hu)]
      exact ih (k + 1) ib fun i hi => hn i (by simp [hi])

theorem flatMap_single {A B : Type} (g : A × Nat → List B) (a : A) (k : Nat) : ∀ (L : List (A × Nat)), (L.map (·.2)).Nodup → (a, k) ∈ L → (∀ p ∈ L, p.2 ≠ k → g p = []) → L.flatMap g = g (a, k) := by
  intro L
  induction L with
  | nil => intro _ h; simp at h
  | cons p L ih =>
    intro hn hm hg
    rw [List.map_cons, List.nodup_cons] at hn
    rw [List.flatMap_cons]
    by_cases hp : p.2 = k
    · have hpa : p = (a, k) := by
        rcases List.mem_cons.1 hm with h | h
        · exact h.symm
        · exact absurd (List.mem_map.2 ⟨_, h, rfl⟩) (hp ▸ hn.1)
      have hr : L.flatMap g = [] := by
        rw [List.flatMap_eq_nil_iff]
        intro q hq
        refine hg q (by simp [hq]) fun e => hn.1 ?_
        rw [hp, ← e]
        exact List.mem_map.2 ⟨q, hq, rfl⟩
      rw [hr, List.append_nil, hpa]
    · rw [hg p (by simp) hp, List.nil_append]
      refine ih hn.2 ((List.mem_cons.1 hm).resolve_left fun e => hp (by rw [← e])) fun q hq => hg q (by simp [hq])

theorem filter_single {B : Type} (f : B → Nat) (s : Nat) : ∀ (L : List B), (L.map f).Nodup → s ∈ L.map f → ∃ b ∈ L, f b = s ∧ L.filter (fun b => f b == s) = [b] := by
  intro L
  induction L with
  | nil => intro _ h; simp at h
  | cons b L ih =>
    intro hn hm
    rw [List.map_cons, List.nodup_cons] at hn
    by_cases hb : f b = s
    · refine ⟨b, by simp, hb, ?_⟩
      rw [List.filter_cons_of_pos (by simp [hb]), List.filter_eq_nil_iff.2]
      intro c hc e
      rw [beq_iff_eq] at e
      exact hn.1 (List.mem_map.2 ⟨c, hc, by rw [e, hb]⟩)
    · obtain ⟨c, c1, c2, c3⟩ := ih hn.2 (by simpa [Ne.symm hb] using hm)
      exact ⟨c, by simp [c1], c2, by rw [List.filter_cons_of_neg (by simp [hb]), c3]⟩

omit [LinearOrder K] [FloorRing K] in
theorem filesOf_mem {pow : K → K} {o : Opts K} {names : List (List Char)} {k : Nat} {img : Image K P} {h : Nat} {f : File K P} (hf : f ∈ filesOf pow o names k img h) :
    f.img = k ∧ f.h = h ∧ f.name = fileName o names img f.src ∧
      ((∃ c ∈ img.cuts h, c.src = f.src ∧ f.crpix = ((h : K) + 1 + c.dx, (h : K) + 1 + c.dy) ∧ f.px = some (c.px, factor pow o img)) ∨
        ((∀ c ∈ img.cuts h, c.src ≠ f.src) ∧ f.crpix = ((h : K) + 1, (h : K) + 1) ∧ f.px = none)) := by
  unfold filesOf at hf
  rcases List.mem_append.1 hf with hf | hf
  · obtain ⟨c, hc, rfl⟩ := List.mem_map.1 hf
    exact ⟨rfl, rfl, rfl, Or.inl ⟨c, hc, rfl, rfl, rfl⟩⟩
  · obtain ⟨t, ht, rfl⟩ := List.mem_map.1 hf
    refine ⟨rfl, rfl, rfl, Or.inr ⟨fun c hc e => ?_, rfl, rfl⟩⟩
    have := (List.mem_filter.1 ht).2
    simp only [Bool.not_eq_true', ← Bool.not_eq_true, List.contains_iff_mem] at this
    exact this (List.mem_map.2 ⟨c, hc, e⟩)

omit [Field K] [LinearOrder K] [FloorRing K] in
theorem used_iff (o : Opts K) (img : Image K P) : used o img = true ↔ o.bands = [] ∨ img.short ∈ o.bands := by
  unfold used
  rw [Bool.or_eq_true, List.isEmpty_iff, List.contains_iff_mem]

/-! ### C217, C218 -/

/-- For each image that is used and each source, exactly one file is written, with the size that was asked for; for the other images there is none. (Full statement: for all sizes. Here a radius or at most
one size is given. No file has the name of its image, which is an error.) -/
theorem C217_files_partial (pow : K → K) (o : Opts K) (names : List (List Char)) (imgs : List (Image K P)) (hs : o.sizes.length ≤ 1 ∨ (o.radius.isSome ∧ (imgs.length ≤ 1 ∨ o.sizes.length = imgs.length)))
    (hv : ∀ img ∈ imgs, Valid names.length img) (hn : ∀ img ∈ imgs, ∀ s, fileName o names img s ≠ img.file) : (run pow o names imgs).2 = .done ∧
    ∀ k img, imgs[k]? = some img → ∀ s, (o.bands = [] ∨ img.short ∈ o.bands → s < names.length →
      ∃ f, (run pow o names imgs).1.filter (fun f => f.img == k && f.src == s) = [f] ∧ f.h = wanted o img k ∧ f.name = o.out ++ names.getD s [] ++ img.short ++ ".fits".toList ∧
        ((∃ c ∈ img.cuts f.h, c.src = s ∧ f.crpix = ((f.h : K) + 1 + c.dx, (f.h : K) + 1 + c.dy) ∧ f.px = some (c.px, factor pow o img)) ∨ ((∀ c ∈ img.cuts f.h, c.src ≠ s) ∧ f.crpix = ((f.h : K) + 1, (f.h : K) + 1) ∧ f.px = none))) ∧
      (¬ (o.bands = [] ∨ img.short ∈ o.bands) → ∀ f ∈ (run pow o names imgs).1, f.img ≠ k) := by
  have hrun : run pow o names imgs = loop pow o names imgs 0 0 := by
    unfold run
    rw [if_neg (by omega)]
  have hs : o.radius.isSome ∨ o.sizes.length ≤ 1 := by tauto
  obtain ⟨l1, l2⟩ := loop_mem pow o names hs imgs 0 0 hn
  rw [hrun]
  refine ⟨l1, fun k img hk s => ⟨fun hu hsn => ?_, fun hu f hf => ?_⟩⟩
  · have hu := (used_iff o img).2 hu
    rw [l2, List.filter_flatMap]
    have hmem : (img, k) ∈ (imgs.zipIdx 0).filter fun p => used o p.1 := by
      rw [List.mem_filter]
      exact ⟨by rw [List.mem_zipIdx_iff_getElem?]; exact hk, hu⟩
    have hnd : (((imgs.zipIdx 0).filter fun p => used o p.1).map (·.2)).Nodup := by
      refine List.Nodup.sublist (List.Sublist.map _ List.filter_sublist) ?_
      rw [List.zipIdx_map_snd]
      exact List.nodup_range'
    rw [flatMap_single (fun p => (filesOf pow o names p.2 p.1 (wanted o p.1 p.2)).filter fun f => f.img == k && f.src == s) img k _ hnd hmem]
    · dsimp only
      have hp := filesOf_src pow o names k img (wanted o img k) (hv img (List.mem_of_getElem? hk))
      obtain ⟨f, f1, f2, f3⟩ := filter_single (·.src) s (filesOf pow o names k img (wanted o img k)) (hp.nodup_iff.2 List.nodup_range) (hp.mem_iff.2 (List.mem_range.2 hsn))
      obtain ⟨g1, g2, g3, g4⟩ := filesOf_mem f1
      refine ⟨f, ?_, g2, by rw [g3, f2]; rfl, ?_⟩
      · rw [← f3]
        refine List.filter_congr fun x hx => ?_
        rw [(filesOf_mem hx).1]
        simp
      · rw [g2, ← f2]
        exact g4
    · intro p _ hpk
      rw [List.filter_eq_nil_iff]
      intro f hf
      rw [(filesOf_mem hf).1]
      simp [hpk]
  · rw [l2, List.mem_flatMap] at hf
    obtain ⟨p, hp, hf⟩ := hf
    rw [(filesOf_mem hf).1]
    rintro rfl
    rw [List.mem_filter, List.mem_zipIdx_iff_getElem?] at hp
    have : img = p.1 := by
      have := hp.1
      rw [hk] at this
      exact Option.some.inj this
    exact hu ((used_iff o img).1 (this ▸ hp.2))

/-- an example: two images, the second one covers only the second source -/
def exImgs : List (Image Rat Nat) := [⟨"a.fits".toList, "A".toList, some 2, some 25, fun _ => [⟨1, 1 / 4, 0, 7⟩, ⟨0, 0, 0, 8⟩]⟩, ⟨"b.fits".toList, "B".toList, none, none, fun _ => [⟨1, 0, 0, 9⟩]⟩]
example : ((run (fun _ => 3) ⟨[], some 40, [], false, "o/".toList⟩ ["x_".toList, "y_".toList] exImgs).1.map fun f => (String.ofList f.name, f.h, f.crpix, f.px)) =
    [("o/y_A.fits", 20, (85 / 4, 21), some (7, 3)), ("o/x_A.fits", 20, (21, 21), some (8, 3)), ("o/y_B.fits", 50, (51, 51), some (9, 1)), ("o/x_B.fits", 50, (51, 51), none)] := by decide +kernel

theorem factor_files (pow : K → K) (o : Opts K) (names : List (List Char)) (P' : K → Prop) : ∀ (imgs : List (Image K P)) (k ib : Nat), (∀ img ∈ imgs, P' (factor pow o img)) →
    ∀ f ∈ (loop pow o names imgs k ib).1, ∀ c z, f.px = some (c, z) → P' z := by
  intro imgs
  induction imgs with
  | nil => intro k ib _ f hf; simp [loop] at hf
  | cons img rest ih =>
    intro k ib hP f hf c z hz
    have hrest := ih (k + 1) (ib + 1) (fun i hi => hP i (List.mem_cons_of_mem _ hi))
    have hrest' := ih (k + 1) ib (fun i hi => hP i (List.mem_cons_of_mem _ hi))
    have hfs : ∀ h, f ∈ filesOf pow o names k img h → P' z := by
      intro h hm
      unfold filesOf at hm
      rcases List.mem_append.1 hm with hm | hm
      · obtain ⟨c', -, rfl⟩ := List.mem_map.1 hm
        simp only [Option.some.injEq, Prod.mk.injEq] at hz
        rw [← hz.2]
        exact hP img List.mem_cons_self
      · obtain ⟨s', -, rfl⟩ := List.mem_map.1 hm
        simp at hz
    unfold loop at hf
    by_cases hu : used o img = true
    · rw [if_pos hu] at hf
      dsimp only at hf
      cases hh : halfSize o img (ib + 1) with
      | none => rw [hh] at hf; simp at hf
      | some h =>
        rw [hh] at hf
        dsimp only at hf
        split at hf
        · exact hfs h ((List.takeWhile_sublist _).mem hf)
        · rcases List.mem_append.1 hf with hf | hf
          · exact hfs h hf
          · exact hrest f hf c z hz
    · rw [if_neg hu] at hf
      exact hrest' f hf c z hz

/-- **C217**: with `no_zero` the pixels are never multiplied. -/
theorem C217_no_zero (pow : K → K) (o : Opts K) (hz : o.noZero = true) (names : List (List Char)) (imgs : List (Image K P)) : ∀ f ∈ (run pow o names imgs).1, ∀ c z, f.px = some (c, z) → z = 1 := by
  unfold run
  split
  · intro f hf; simp at hf
  · exact factor_files pow o names (fun z => z = 1) imgs 0 0 fun img _ => by unfold factor; rw [if_pos hz]

/-- **C217**: the number of sizes, if there are several, must be the number of images, otherwise nothing is written. -/
theorem C217_sizes_error (pow : K → K) (o : Opts K) (names : List (List Char)) (imgs : List (Image K P)) (h1 : 2 ≤ o.sizes.length) (h2 : 2 ≤ imgs.length) (h3 : o.sizes.length ≠ imgs.length) :
    run pow o names imgs = ([], .error) := if_pos ⟨h1, h2, h3⟩

/-- `CRPIX1` (or `CRPIX2`) is where the source is in the cutout: with its first pixel numbered 1, the pixel `i` is the pixel `round(x) - h - 1 + i` of the image, in which the source is at `x`. -/
theorem C217_reference (x : K) (h : Nat) (i : K) : i = (h : K) + 1 + (x - (Qstack.rnd x : Int)) ↔ ((Qstack.rnd x : Int) : K) - h - 1 + i = x := by
  constructor
  · rintro rfl; ring
  · intro e
    linear_combination e

theorem shifted (pow : K → K) (o : Opts K) (names : List (List Char)) (hr : o.radius = none) (hb : o.bands = []) (h2 : 1 < o.sizes.length) : ∀ (imgs : List (Image K P)) (ib : Nat)
    (_ : ∀ img ∈ imgs, ∀ s, fileName o names img s ≠ img.file) (_ : imgs ≠ []) (_ : ib + imgs.length = o.sizes.length),
    (loop pow o names imgs ib ib).2 = .abort ∧ ∀ f ∈ (loop pow o names imgs ib ib).1, o.sizes[f.img + 1]? = some f.h := by
  intro imgs
  induction imgs with
  | nil => intro ib _ h; exact absurd rfl h
  | cons img rest ih =>
    intro ib hn _ hl
    rw [loop, if_pos ((used_iff o img).2 (Or.inl hb))]
    have hh : halfSize o img (ib + 1) = o.sizes[ib + 1]? := by
      unfold halfSize
      rw [hr]
      dsimp only
      rw [if_pos h2]
    dsimp only
    rw [hh]
    rw [List.length_cons] at hl
    cases hrest : rest with
    | nil =>
      rw [hrest] at hl
      rw [List.getElem?_eq_none (by simp only [List.length_nil] at hl; omega)]
      exact ⟨rfl, by simp⟩
    | cons img2 rest2 =>
      rw [← hrest]
      have hlen : ib + 1 < o.sizes.length := by
        have : rest.length ≠ 0 := by rw [hrest]; simp
        omega
      rw [List.getElem?_eq_getElem hlen]
      dsimp only
      rw [if_neg]
      · obtain ⟨i1, i2⟩ := ih (ib + 1) (fun i hi => hn i (by simp [hi])) (by rw [hrest]; simp) (by omega)
        refine ⟨i1, fun f hf => ?_⟩
        rcases List.mem_append.1 hf with hf | hf
        · obtain ⟨g1, g2, -⟩ := filesOf_mem hf
          rw [g1, g2, List.getElem?_eq_getElem hlen]
        · exact i2 f hf
      · rw [Bool.not_eq_true, List.any_eq_false]
        intro f hf
        rw [(filesOf_mem hf).2.2.1, beq_iff_eq]
        exact hn img (by simp) _

/-- If each image has its own size, each one gets the size of the next one, and the program stops at the last one. -/
theorem C217_sizes_refuted (pow : K → K) (o : Opts K) (names : List (List Char)) (imgs : List (Image K P)) (hr : o.radius = none) (hb : o.bands = []) (h2 : 1 < o.sizes.length)
    (hl : imgs.length = o.sizes.length) (hn : ∀ img ∈ imgs, ∀ s, fileName o names img s ≠ img.file) :
    (run pow o names imgs).2 = .abort ∧ ∀ f ∈ (run pow o names imgs).1, o.sizes[f.img + 1]? = some f.h := by
  unfold run
  rw [if_neg (by omega)]
  exact shifted pow o names hr hb h2 imgs 0 hn (by rintro rfl; simp at hl; omega) (by omega)

example : ((run (fun _ => 3) ⟨[], none, [5, 8], false, []⟩ ["x_".toList, "y_".toList] exImgs).1.map fun f => (f.img, f.h)) = [(0, 8), (0, 8)] := by decide +kernel

omit [Field K] [LinearOrder K] [FloorRing K] in
/-- The files of an image have different names if the sources have, and those of a source have different names if the images have different short names. (Full statement: all the files have different names.) -/
theorem C218_names_partial (o : Opts K) (names : List (List Char)) (i j : Image K P) (s t : Nat) :
    (names.getD s [] ≠ names.getD t [] → fileName o names i s ≠ fileName o names i t) ∧ (i.short ≠ j.short → fileName o names i s ≠ fileName o names j s) := by
  unfold fileName
  constructor
  · intro h e
    exact h (List.append_cancel_left (List.append_cancel_right (List.append_cancel_right e)))
  · intro h e
    exact h (List.append_cancel_left (List.append_cancel_right e))

omit [FloorRing K] [LinearOrder K] [Field K] in
/-- Images for which no short name is given have the same files: the last one replaces the others. Also with different names, the name of the source and that of the image can be cut at several places. -/
theorem C218_names_refuted (o : Opts K) (names : List (List Char)) (i j : Image K P) (s : Nat) : (i.short = [] → j.short = [] → fileName o names i s = fileName o names j s) ∧
    (i.short = "K_s".toList → j.short = "s".toList → fileName o ["a_".toList, "a_K_".toList] i 0 = fileName o ["a_".toList, "a_K_".toList] j 1) := by
  constructor
  · intro h1 h2
    unfold fileName
    rw [h1, h2]
  · intro h1 h2
    unfold fileName
    rw [h1, h2]
    simp

end Verif.GetGal
