import Verif.Str.Model
import Mathlib.Data.List.Sort
import Mathlib.Data.List.Infix
/-!
# The bands of the images of `qaper` (C209)

`std::sort` is any permutation of the table that is sorted; it is not stable.
-/
namespace Verif.QaperBand
open Verif Verif.Str

/-! ### Model -/

/-- `bandmap` (`qaper.cpp:156-241`) -/
def names : List (String × String) :=
  [("kpno-u", "mosaic_u"), ("vimos-u", "vimos_u"), ("vimos-r", "vimos_r"), ("cfht-u", "cfht_u"), ("cfht-g", "cfht_g"), ("cfht-r", "cfht_r"), ("cfht-i", "cfht_i"),
   ("cfht-z", "cfht_z"), ("mosaic-z", "cfht_z"), ("subaru-B", "sub_B"), ("subaru-V", "sub_V"), ("subaru-g", "sub_g"), ("subaru-r", "sub_r"), ("subaru-R", "sub_r"),
   ("subaru-i", "sub_i"), ("subaru-z", "sub_z"), ("subaru-zpp", "sub_z"), ("subaru-ib427", "IB427"), ("subaru-ib445", "IB445"), ("subaru-ib464", "IB464"),
   ("subaru-ib484", "IB484"), ("subaru-ib505", "IB505"), ("subaru-ib527", "IB527"), ("subaru-ib550", "IB550"), ("subaru-ib574", "IB574"), ("subaru-ib598", "IB598"),
   ("subaru-ib624", "IB624"), ("subaru-ib651", "IB651"), ("subaru-ib679", "IB679"), ("subaru-ib709", "IB709"), ("subaru-ib738", "IB738"), ("subaru-ib767", "IB767"),
   ("subaru-ib827", "IB827"), ("subaru-ib856", "IB856"), ("wfi-U", "wfi_U"), ("wfi-U32", "wfi_U38"), ("wfi-B", "wfi_B"), ("wfi-V", "wfi_V"), ("wfi-R", "wfi_R"),
   ("wfi-I", "wfi_I"), ("acs-f435w", "f435w"), ("acs-f606w", "f606w"), ("acs-f775w", "f775w"), ("acs-f814w", "f814w"), ("acs-f850lp", "f850lp"), ("wfc3-f105w", "f105w"),
   ("wfc3-f125w", "f125w"), ("wfc3-f140w", "f140w"), ("wfc3-f160w", "f160w"), ("vista-Y", "vista_Y"), ("vista-J", "vista_J"), ("vista-nb118", "vista_NB118"),
   ("vista-H", "vista_H"), ("vista-Ks", "vista_Ks"), ("hawki-Y", "hawki_Y"), ("hawki-k", "hawki_Ks"), ("hawki-Ks", "hawki_Ks"), ("wircam-Y", "wircam_Y"), ("wircam-J", "wircam_J"),
   ("wircam-H", "wircam_H"), ("wircam-Ks", "wircam_Ks"), ("isaac-J", "isaac_J"), ("isaac-H", "isaac_H"), ("isaac-Ks", "isaac_Ks"), ("cfht-Ks", "wircam_Ks"),
   ("moircs-Y", "moircs_Y"), ("moircs-J", "moircs_J"), ("moircs-H", "moircs_H"), ("moircs-Ks", "moircs_Ks"), ("ukidss-J", "ukidss_J"), ("ukidss-H", "ukidss_H"),
   ("ukidss-K", "ukidss_K"), ("zfourge-J", "fourstar_J"), ("zfourge-J1", "fourstar_J1"), ("zfourge-J2", "fourstar_J2"), ("zfourge-J3", "fourstar_J3"), ("zfourge-H", "fourstar_H"),
   ("zfourge-H1", "fourstar_H1"), ("zfourge-H2", "fourstar_H2"), ("zfourge-Ks", "fourstar_Ks"), ("spitzer-irac-3p6", "i1"), ("spitzer-irac-4p5", "i2"), ("spitzer-irac-5p8", "i3"),
   ("spitzer-irac-8p0", "i4")]

/-- `bandmap`, as lists of characters -/
def table : List (Str × Str) := names.map fun q => (q.1.toList, q.2.toList)

/-- the loop over the patterns (`qaper.cpp:514,518-523`) -/
def bandOf (l : List (Str × Str)) (imgf : Str) : Str := ((l.find? fun q => (find imgf q.1).isSome).map Prod.snd).getD []

/-- a result of `std::sort` by decreasing size of the pattern (`qaper.cpp:245-248`) -/
def Sorted (l : List (Str × Str)) : Prop := l.Perm table ∧ l.Pairwise fun a b => b.1.length ≤ a.1.length

/-! ### Helpers -/

theorem find_isSome (s pat : Str) : (find s pat).isSome ↔ pat <:+: s := by
  unfold find
  constructor
  · intro h
    obtain ⟨k, hk⟩ := Option.isSome_iff_exists.1 h
    exact (sfind_some.1 hk).2.2.1.isInfix.trans (List.drop_suffix _ _).isInfix
  · rintro ⟨a, b, rfl⟩
    rw [← Option.ne_none_iff_isSome]
    intro h
    refine sfind_none.1 h a.length (Nat.zero_le _) (by simp) ?_
    unfold OccursAt
    rw [List.append_assoc, List.drop_left]
    exact List.prefix_append _ _

theorem bandOf_cases (l : List (Str × Str)) (hs : l.Pairwise fun a b => b.1.length ≤ a.1.length) (s : Str) :
    ((∀ q ∈ l, ¬ q.1 <:+: s) ∧ bandOf l s = []) ∨ ∃ q ∈ l, q.1 <:+: s ∧ bandOf l s = q.2 ∧ ∀ r ∈ l, r.1 <:+: s → r.1.length ≤ q.1.length := by
  unfold bandOf
  induction l with
  | nil => exact Or.inl ⟨by simp, rfl⟩
  | cons a l ih =>
    rw [List.pairwise_cons] at hs
    rw [List.find?_cons]
    by_cases ha : a.1 <:+: s
    · rw [(find_isSome s a.1).2 ha]
      right
      refine ⟨a, List.mem_cons_self, ha, rfl, ?_⟩
      intro r hr _
      rcases List.mem_cons.1 hr with rfl | hr
      · exact le_refl _
      · exact hs.1 r hr
    · have : (find s a.1).isSome = false := by
        rw [← Bool.not_eq_true, find_isSome]; exact ha
      rw [this]
      rcases ih hs.2 with ⟨h1, h2⟩ | ⟨q, hq, h1, h2, h3⟩
      · left
        refine ⟨?_, h2⟩
        intro q hq
        rcases List.mem_cons.1 hq with rfl | hq
        · exact ha
        · exact h1 q hq
      · right
        refine ⟨q, List.mem_cons_of_mem _ hq, h1, h2, ?_⟩
        intro r hr hrs
        rcases List.mem_cons.1 hr with rfl | hr
        · exact absurd hrs ha
        · exact h3 r hr hrs

theorem table_keys : (table.map Prod.fst).Nodup := by decide +kernel
theorem table_bands : ∀ q ∈ table, q.2 ≠ [] := by decide +kernel

theorem key_unique {q r : Str × Str} (hq : q ∈ table) (hr : r ∈ table) (h : q.1 = r.1) : q = r :=
  List.inj_on_of_nodup_map table_keys hq hr h

/-! ### C209 -/

/-- There is no band if and only if the path of the image contains no pattern of the table. If it contains a pattern which is longer than the others that it contains (in particular, if they are
all parts of this pattern), the band is that of this pattern. (Full statement: the band is that of the name of the file.) -/
theorem C209_band_partial (l : List (Str × Str)) (hl : Sorted l) (imgf : Str) :
    (bandOf l imgf = [] ↔ ∀ q ∈ table, ¬ q.1 <:+: imgf) ∧
    (∀ q ∈ table, q.1 <:+: imgf → (∀ r ∈ table, r.1 <:+: imgf → r = q ∨ r.1.length < q.1.length) → bandOf l imgf = q.2) ∧
    (∀ q ∈ table, q.1 <:+: imgf → (∀ r ∈ table, r.1 <:+: imgf → r.1 <:+: q.1) → bandOf l imgf = q.2) := by
  have hmem : ∀ q, q ∈ l ↔ q ∈ table := fun q => hl.1.mem_iff
  have h2 : ∀ q ∈ table, q.1 <:+: imgf → (∀ r ∈ table, r.1 <:+: imgf → r = q ∨ r.1.length < q.1.length) → bandOf l imgf = q.2 := by
    intro q hq hqs hr
    rcases bandOf_cases l hl.2 imgf with ⟨h1, -⟩ | ⟨r, hrl, hrs, he, hmax⟩
    · exact absurd hqs (h1 q ((hmem q).2 hq))
    · rcases hr r ((hmem r).1 hrl) hrs with rfl | hlt
      · exact he
      · have := hmax q ((hmem q).2 hq) hqs
        omega
  refine ⟨?_, h2, ?_⟩
  · rcases bandOf_cases l hl.2 imgf with ⟨h1, he⟩ | ⟨r, hrl, hrs, he, -⟩
    · exact ⟨fun _ q hq => h1 q ((hmem q).2 hq), fun _ => he⟩
    · constructor
      · intro h0
        exact absurd (he.symm.trans h0) (table_bands r ((hmem r).1 hrl))
      · intro h0
        exact absurd hrs (h0 r ((hmem r).1 hrl))
  · intro q hq hqs hr
    refine h2 q hq hqs fun r hrt hrs => ?_
    have hi := hr r hrt hrs
    rcases Nat.lt_or_ge r.1.length q.1.length with h | h
    · exact Or.inr h
    · exact Or.inl (key_unique hrt hq (hi.eq_of_length (le_antisymm hi.length_le h)))

/-- the table, sorted: patterns of the same size in the order of the table, or in the opposite order -/
def byLength (l : List (Str × Str)) : List (Str × Str) := (List.range 17).reverse.flatMap fun k => l.filter fun q => q.1.length = k

theorem byLength_sorted : Sorted (byLength table) ∧ Sorted (byLength table.reverse) :=
  ⟨⟨by decide +kernel, by decide +kernel⟩, ⟨by decide +kernel, by decide +kernel⟩⟩

/-- an example: `subaru-ib427` also contains `subaru-i` -/
example : bandOf (byLength table) "/data/subaru-ib427.fits".toList = "IB427".toList := by decide +kernel
example : "subaru-i".toList <:+: "/data/subaru-ib427.fits".toList := ⟨"/data/".toList, "b427.fits".toList, by decide⟩
example : bandOf (byLength table) "/data/image.fits".toList = [] := by decide +kernel

/-- The patterns are searched in the whole path: the name of a directory can hide that of the file. -/
theorem C209_directory_refuted (l : List (Str × Str)) (hl : Sorted l) : bandOf l "/subaru-ib427/cfht-g.fits".toList = "IB427".toList := by
  refine (C209_band_partial l hl _).2.1 ("subaru-ib427".toList, "IB427".toList) (by decide +kernel) ⟨"/".toList, "/cfht-g.fits".toList, by decide⟩ ?_
  have : ∀ r ∈ table, (find "/subaru-ib427/cfht-g.fits".toList r.1).isSome = true → r = ("subaru-ib427".toList, "IB427".toList) ∨ r.1.length < 12 := by decide +kernel
  intro r hr hs
  exact this r hr ((find_isSome _ _).2 hs)

/-- For two patterns of the same size, the band depends on the implementation of `std::sort`. -/
theorem C209_tie_refuted : ∃ l m, Sorted l ∧ Sorted m ∧ bandOf l "/kpno-u/cfht-g.fits".toList ≠ bandOf m "/kpno-u/cfht-g.fits".toList :=
  ⟨byLength table, byLength table.reverse, byLength_sorted.1, byLength_sorted.2, by decide +kernel⟩

/-- The pattern of the band `wfi_U38` is `wfi-U32`: an image named after the band, as the images of the other bands are, gets the band `wfi_U`. -/
theorem C209_u38_refuted (l : List (Str × Str)) (hl : Sorted l) : ("wfi-U32".toList, "wfi_U38".toList) ∈ table ∧ bandOf l "wfi-U38.fits".toList = "wfi_U".toList := by
  refine ⟨by decide +kernel, (C209_band_partial l hl _).2.1 ("wfi-U".toList, "wfi_U".toList) (by decide +kernel) ⟨[], "38.fits".toList, by decide⟩ ?_⟩
  have : ∀ r ∈ table, (find "wfi-U38.fits".toList r.1).isSome = true → r = ("wfi-U".toList, "wfi_U".toList) ∨ r.1.length < 5 := by decide +kernel
  intro r hr hs
  exact this r hr ((find_isSome _ _).2 hs)

end Verif.QaperBand
