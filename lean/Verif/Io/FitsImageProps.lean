import Verif.Io.FitsImage
import Verif.Io.FitsElemProps
/-!
# C132, C133: images in FITS files, and their HDUs
-/
namespace Verif.FitsImage
open Verif Verif.Core Verif.FitsTable

variable {α : Type}

/-! ### Spec -/

/-- the current HDU exists, or the file has none -/
def Valid (f : File α) : Prop := (f.hdus = [] ∧ f.cur = 0) ∨ f.cur < f.hdus.length

/-- the HDU of a vector: the axes are in the reverse order -/
def imageOf (e : ET) (v : Vec α) : Hdu α := .image (writtenAs e) v.dims.reverse v.data

/-- an image can be written: the file has no HDU, or the current one has no axes -/
def Vacant (f : File α) : Prop := f.hdus = [] ∨ ∃ t px, f.hdus[f.cur]? = some (.image t [] px)

/-- all numbers can be converted without change -/
def Exact (g : α → Res α) (l : List α) : Prop := ∀ a ∈ l, g a = .ok a

/-! ### Lemmas -/

theorem revAxes_eq (l : List Nat) : revAxes l = l.reverse := by
  apply List.ext_getElem (by simp [revAxes])
  intro i h1 h2
  simp only [revAxes, List.length_map, List.length_range] at h1
  simp only [revAxes, List.getElem_map, List.getElem_range, List.getElem_reverse]
  rw [List.getD_eq_getElem?_getD, List.getElem?_eq_getElem (by omega), Option.getD_some]

theorem exact_mapM {g : α → Res α} {l : List α} (h : Exact g l) : l.mapM g = .ok l := by
  have := Res.mapM_ok (g := fun a => a) h
  rwa [List.map_id'] at this

theorem set_get {β : Type} (l : List β) (i k : Nat) (x : β) (h : i < l.length) : (l.set i x)[k]? = if k = i then some x else l[k]? := by
  rw [List.getElem?_set]
  by_cases hk : i = k
  · subst hk; simp [h]
  · rw [if_neg hk, if_neg (fun h => hk h.symm)]

theorem overwrite_all (px w : List α) (h : px.length = w.length) : overwrite px 0 w = w := by
  unfold overwrite
  rw [List.take_zero, List.nil_append, Nat.zero_add, ← h, List.drop_length, List.append_nil]

theorem writeImg_spec (c : Conv α) (f : File α) (t : CT) (naxes : List Nat) (px v : List α) (h : f.hdus[f.cur]? = some (.image t naxes px))
    (hl : px.length = v.length) (he : Exact (c.store t) v) : writeImg c f v = .ok { f with hdus := f.hdus.set f.cur (.image t naxes v) } := by
  unfold writeImg
  rw [h]
  simp only
  rw [if_neg (by omega), exact_mapM he, Res.ok_bind, overwrite_all px v hl]

theorem isEmpty_iff (f : File α) : isEmpty f = true ↔ ∃ t px, f.hdus[f.cur]? = some (.image t [] px) := by
  unfold isEmpty
  split
  · next t naxes px h => simp [h]
  · next h =>
    constructor
    · intro h; cases h
    · rintro ⟨t, px, h'⟩
      exact absurd h' (h t [] px)

theorem npix_rev {v : Vec α} (h : Shaped v) : npix (revAxes v.dims) = v.data.length := by
  rw [revAxes_eq, npix, if_neg (by simpa using h.1), prod_reverse, h.2]

/-! ### C132 -/

/-- **C132** writing an image: it becomes the current HDU, with its dimensions in the reverse order, and the other HDUs do not change; this is refused if the
current HDU has data -/
theorem C132_write (z : α) (c : Conv α) (f : File α) (e : ET) (v : Vec α) (hf : Valid f) (hs : Shaped v) (he : Exact (c.store (writtenAs e)) v.data) :
    (Vacant f → ∃ f', write z c f e v = .ok f' ∧ f'.cur = f.cur ∧ f'.hdus[f.cur]? = some (imageOf e v) ∧
      f'.hdus.length = max 1 f.hdus.length ∧ ∀ k, k ≠ f.cur → f'.hdus[k]? = f.hdus[k]?) ∧
    (¬ Vacant f → write z c f e v = .abort) := by
  have hn := npix_rev hs
  constructor
  · intro hv
    by_cases h0 : f.hdus = []
    · have hc : f.cur = 0 := by
        rcases hf with h | h
        · exact h.2
        · rw [h0] at h; simp at h
      refine ⟨⟨[imageOf e v], 0⟩, ?_, hc.symm, by simp [hc], by simp [h0], fun k hk => ?_⟩
      · unfold write
        simp only [h0, ne_eq, not_true_eq_false, if_false, Res.ok_bind]
        rw [writeImg_spec c _ (writtenAs e) (revAxes v.dims) (List.replicate (npix (revAxes v.dims)) z) v.data (by simp [insertHdu, h0]) (by simp [hn]) he]
        simp [insertHdu, h0, imageOf, revAxes_eq]
      · rw [h0, List.getElem?_nil, List.getElem?_eq_none]
        simp only [List.length_cons, List.length_nil]
        omega
    · have hc : f.cur < f.hdus.length := by
        rcases hf with h | h
        · exact absurd h.1 h0
        · exact h
      have hem : isEmpty f = true := by
        rw [isEmpty_iff]
        rcases hv with h | h
        · exact absurd h h0
        · exact h
      refine ⟨⟨f.hdus.set f.cur (imageOf e v), f.cur⟩, ?_, rfl, ?_, ?_, fun k hk => ?_⟩
      · unfold write
        simp only [ne_eq, h0, not_false_eq_true, if_true]
        rw [Res.check_pos hem, Res.ok_bind, Res.ok_bind,
          writeImg_spec c _ (writtenAs e) (revAxes v.dims) (List.replicate (npix (revAxes v.dims)) z) v.data (by simp [resizeImg, hc]) (by simp [hn]) he]
        simp [resizeImg, imageOf, revAxes_eq]
      · simp only
        rw [set_get _ _ _ _ hc, if_pos rfl]
      · simp only [List.length_set]; omega
      · simp only
        rw [set_get _ _ _ _ hc, if_neg hk]
  · intro hv
    unfold Vacant at hv
    push Not at hv
    have hem : ¬ isEmpty f = true := by
      rw [isEmpty_iff]
      rintro ⟨t, px, h⟩
      exact hv.2 t px h
    unfold write
    simp only [ne_eq, hv.1, not_false_eq_true, if_true]
    rw [Res.check_neg hem]
    rfl

/-- **C132** reading an image: all of it, with the dimensions in the reverse order of the axes, if the number of dimensions is that of the vector and if the type can
be converted; otherwise it is refused, and so are tables -/
theorem C132_read (c : Conv α) (f : File α) (e : ET) (dim : Nat) :
    (∀ t naxes px, f.hdus[f.cur]? = some (.image t naxes px) → naxes ≠ [] → px.length = naxes.prod → Exact (c.load e) px →
      (naxes.length = dim ∧ convertible e t = true → read c f e dim = .ok ⟨px, naxes.reverse⟩) ∧
      (¬ (naxes.length = dim ∧ convertible e t = true) → read c f e dim = .abort)) ∧
    (f.hdus[f.cur]? = some .table ∨ f.hdus[f.cur]? = none → read c f e dim = .abort) := by
  refine ⟨fun t naxes px h hn hl he => ⟨fun ⟨h1, h2⟩ => ?_, fun h1 => ?_⟩, fun h => ?_⟩
  · unfold read readPrep
    rw [h]
    simp only
    rw [Res.check_pos h1, Res.ok_bind, Res.check_pos h2, Res.ok_bind, Res.ok_bind]
    simp only [revAxes_eq, prod_reverse, ← hl]
    unfold readImg
    by_cases h0 : px.length = 0
    · rw [if_pos h0, Res.ok_bind, List.eq_nil_of_length_eq_zero h0]
    · rw [if_neg h0, if_pos (by omega)]
      simp only [Nat.sub_self, List.drop_zero, List.take_length]
      rw [exact_mapM he, Res.ok_bind]
  · unfold read readPrep
    rw [h]
    simp only
    by_cases h2 : naxes.length = dim
    · rw [Res.check_pos h2, Res.ok_bind, Res.check_neg (fun h3 => h1 ⟨h2, h3⟩)]
      rfl
    · rw [Res.check_neg h2]
      rfl
  · unfold read readPrep
    rcases h with h | h <;> rw [h] <;> rfl

/-- moving to an HDU that exists -/
theorem reach_existing (r : Rights) (g : File α) (k : Nat) (h : k < g.hdus.length) : reachHdu r g k = .ok { g with cur := k } := by
  unfold reachHdu
  have hm : movabs g (k + 1) = .ok { g with cur := k } := by
    unfold movabs
    rw [if_pos (by omega)]; rfl
  rw [if_neg (by omega : ¬ (r = .write ∧ g.hdus.length ≤ k))]
  cases r with
  | readOnly =>
    rw [if_pos rfl, Res.check_pos h, Res.ok_bind]
    exact hm
  | write =>
    rw [if_neg (by decide), Res.ok_bind]
    exact hm

/-- **C132** an image written in an HDU is read back, with its dimensions, from any later state of the file in which that HDU is still there, at any position -/
theorem C132_roundtrip (z : α) (c : Conv α) (f f' g : File α) (e : ET) (v : Vec α) (r : Rights) (k : Nat) (hf : Valid f) (hs : Shaped v) (hst : e ≠ .string)
    (he : Exact (c.store (writtenAs e)) v.data) (hl : Exact (c.load e) v.data) (hw : write z c f e v = .ok f') (hg : g.hdus[k]? = f'.hdus[f'.cur]?) :
    ∃ g', reachHdu r g k = .ok g' ∧ read c g' e v.dims.length = .ok v ∧ imageDims g' = .ok v.dims ∧ axisCount g' = .ok v.dims.length := by
  have hv : Vacant f := by
    by_contra h
    rw [(C132_write z c f e v hf hs he).2 h] at hw
    cases hw
  obtain ⟨f1, h1, h2, h3, -⟩ := (C132_write z c f e v hf hs he).1 hv
  rw [h1] at hw
  cases hw
  rw [h2, h3] at hg
  have hk : k < g.hdus.length := by
    by_contra h
    rw [List.getElem?_eq_none (by omega)] at hg
    cases hg
  refine ⟨_, reach_existing r g k hk, ?_, ?_, ?_⟩
  · have := ((C132_read c { g with cur := k } e v.dims.length).1 (writtenAs e) v.dims.reverse v.data hg (by simpa using hs.1)
      (by rw [prod_reverse]; exact hs.2) hl).1 ⟨by simp, by cases e <;> first | rfl | exact absurd rfl hst⟩
    rw [this]
    simp
  · unfold imageDims
    simp only [hg, imageOf, revAxes_eq, List.reverse_reverse]
  · unfold axisCount
    simp only [hg, imageOf, List.length_reverse]

/-- **C132** `update` replaces the pixels of the current image and nothing else; it is refused if the dimensions are not the same or if the type of the image cannot be
read in a vector of that type -/
theorem C132_update_partial (c : Conv α) (f : File α) (e : ET) (v : Vec α) (t : CT) (naxes : List Nat) (px : List α) (hs : Shaped v)
    (h : f.hdus[f.cur]? = some (.image t naxes px)) (hl : px.length = npix naxes) (he : Exact (c.store t) v.data) :
    (v.dims = naxes.reverse ∧ convertible e t = true → ∃ f', update c f e v = .ok f' ∧ f'.cur = f.cur ∧
      f'.hdus[f.cur]? = some (.image t naxes v.data) ∧ ∀ k, k ≠ f.cur → f'.hdus[k]? = f.hdus[k]?) ∧
    (¬ (v.dims = naxes.reverse ∧ convertible e t = true) → update c f e v = .abort) := by
  have hc : f.cur < f.hdus.length := by
    by_contra hh
    rw [List.getElem?_eq_none (by omega)] at h
    cases h
  constructor
  · rintro ⟨h1, h2⟩
    have hn : naxes ≠ [] := by
      rintro rfl
      exact hs.1 (by simpa using h1)
    refine ⟨⟨f.hdus.set f.cur (.image t naxes v.data), f.cur⟩, ?_, rfl, ?_, fun k hk => ?_⟩
    · unfold update
      rw [h]
      simp only
      rw [Res.check_pos (by rw [h1]; simp), Res.ok_bind, Res.check_pos h2, Res.ok_bind, Res.check_pos (by rw [revAxes_eq]; exact h1), Res.ok_bind,
        writeImg_spec c f t naxes px v.data h (by rw [hl, npix, if_neg hn, hs.2, h1, prod_reverse]) he]
    · simp only
      rw [set_get _ _ _ _ hc, if_pos rfl]
    · simp only
      rw [set_get _ _ _ _ hc, if_neg hk]
  · intro hh
    unfold update
    rw [h]
    simp only
    by_cases h1 : naxes.length = v.dims.length
    · rw [Res.check_pos h1, Res.ok_bind]
      by_cases h2 : convertible e t = true
      · rw [Res.check_pos h2, Res.ok_bind, Res.check_neg]
        · rfl
        · rw [revAxes_eq]
          exact fun h3 => hh ⟨h3, h2⟩
      · rw [Res.check_neg h2]
        rfl
    · rw [Res.check_neg h1]
      rfl

/-- Finding: the types are checked as for reading. An image of `double`s cannot be updated with `float`s, although all of them could be kept... -/
theorem C132_update_refuted (c : Conv α) (f : File α) (v : Vec α) (naxes : List Nat) (px : List α) (h : f.hdus[f.cur]? = some (.image .double naxes px)) :
    update c f .float v = .abort := by
  unfold update
  rw [h]
  simp only
  by_cases h1 : naxes.length = v.dims.length
  · rw [Res.check_pos h1, Res.ok_bind, Res.check_neg (by decide)]
    rfl
  · rw [Res.check_neg h1]
    rfl

/-- ... and an image of integers can be updated with `double`s, that are then rounded (here in units of 1/10: 15 stands for 1.5) -/
theorem C132_update_lossy_refuted : ∃ (c : Conv Nat) (f : File Nat) (v : Vec Nat), f.hdus[f.cur]? = some (.image .short [1] [10]) ∧
    update c f .double v = .ok ⟨[.image .short [1] [10]], 0⟩ ∧ v.data = [15] :=
  ⟨⟨fun t a => .ok (if t = .short then a / 10 * 10 else a), fun _ a => .ok a⟩, ⟨[.image .short [1] [10]], 0⟩, ⟨[15], [1]⟩, rfl, by decide, rfl⟩

/-- **C132** `write_empty` gives an HDU without data, that can be written later; it is refused if the current HDU has data -/
theorem C132_write_empty (z : α) (f : File α) (hf : Valid f) :
    (Vacant f → ∃ f', writeEmpty z f = .ok f' ∧ f'.cur = f.cur ∧ Vacant f' ∧ f'.hdus ≠ [] ∧ ∀ k, k ≠ f.cur → f'.hdus[k]? = f.hdus[k]?) ∧
    (¬ Vacant f → writeEmpty z f = .abort) := by
  constructor
  · intro hv
    by_cases h0 : f.hdus = []
    · have hc : f.cur = 0 := by
        rcases hf with h | h
        · exact h.2
        · rw [h0] at h; simp at h
      refine ⟨⟨[emptyHdu], 0⟩, by simp [writeEmpty, h0, insertHdu], hc.symm, Or.inr ⟨_, _, rfl⟩, by simp, fun k hk => ?_⟩
      rw [h0, List.getElem?_nil, List.getElem?_eq_none]
      simp only [List.length_cons, List.length_nil]
      omega
    · have hc : f.cur < f.hdus.length := by
        rcases hf with h | h
        · exact absurd h.1 h0
        · exact h
      have hem : isEmpty f = true := by
        rw [isEmpty_iff]
        rcases hv with h | h
        · exact absurd h h0
        · exact h
      refine ⟨resizeImg z f .float [], ?_, rfl, Or.inr ⟨.float, List.replicate (npix []) z, ?_⟩, ?_, fun k hk => ?_⟩
      · unfold writeEmpty
        rw [if_pos h0, Res.check_pos hem, Res.ok_bind]
      · simp only [resizeImg]
        rw [set_get _ _ _ _ hc, if_pos rfl]
      · intro h
        simp only [resizeImg, List.set_eq_nil_iff] at h
        exact h0 h
      · simp only [resizeImg]
        rw [set_get _ _ _ _ hc, if_neg hk]
  · intro hv
    have h0 : f.hdus ≠ [] := fun h => hv (Or.inl h)
    unfold writeEmpty
    rw [if_pos h0, Res.check_neg]
    · rfl
    · rw [isEmpty_iff]
      exact fun h => hv (Or.inr h)

/-! ### C133: HDUs -/

theorem insertN_spec : ∀ (n : Nat) (f : File α), f.cur < f.hdus.length →
    insertN n f = ⟨f.hdus.take (f.cur + 1) ++ List.replicate n emptyHdu ++ f.hdus.drop (f.cur + 1), f.cur + n⟩
  | 0, f, h => by
    simp [insertN]
  | n + 1, f, h => by
    have hne : f.hdus ≠ [] := by rintro h0; rw [h0] at h; simp at h
    have e1 : insertHdu f emptyHdu = ⟨f.hdus.take (f.cur + 1) ++ emptyHdu :: f.hdus.drop (f.cur + 1), f.cur + 1⟩ := by
      unfold insertHdu; rw [if_neg hne]
    have hlen : (f.hdus.take (f.cur + 1)).length = f.cur + 1 := by rw [List.length_take]; omega
    rw [insertN, e1, insertN_spec n _ (by simp only [List.length_append, hlen, List.length_cons]; omega)]
    have h1 : (f.hdus.take (f.cur + 1) ++ emptyHdu :: f.hdus.drop (f.cur + 1)).take (f.cur + 1 + 1) = f.hdus.take (f.cur + 1) ++ [emptyHdu] := by
      rw [List.take_append, List.take_of_length_le (by omega), hlen]
      simp
    have h2 : (f.hdus.take (f.cur + 1) ++ emptyHdu :: f.hdus.drop (f.cur + 1)).drop (f.cur + 1 + 1) = f.hdus.drop (f.cur + 1) := by
      rw [List.drop_append, List.drop_of_length_le (by omega), hlen]
      simp
    simp only [h1, h2, List.replicate_succ]
    rw [show f.cur + 1 + n = f.cur + (n + 1) by omega]
    congr 1
    simp

theorem insertN_nil (n : Nat) (f : File α) (h : f.hdus = []) : insertN (n + 1) f = ⟨List.replicate (n + 1) emptyHdu, n⟩ := by
  rw [insertN]
  have : insertHdu f emptyHdu = ⟨[emptyHdu], 0⟩ := by unfold insertHdu; rw [if_pos h]
  rw [this, insertN_spec n _ (by simp)]
  simp [List.replicate_succ]

theorem reach_new (f : File α) (hdu : Nat) (h : f.hdus.length ≤ hdu) : reachHdu .write f hdu = movabs (insertN (hdu + 1 - f.hdus.length) f) (hdu + 1) := by
  unfold reachHdu
  rw [if_neg (by decide), Res.ok_bind, if_pos ⟨rfl, h⟩]

/-- **C133** `reach_hdu` makes an HDU current. Those that do not exist yet are created, without data, after the others, which do not change.
This holds if the current HDU is the last one, or if there is nothing to create. -/
theorem C133_reach_partial (f : File α) (hdu : Nat) (h : f.cur + 1 = f.hdus.length ∨ f.hdus = [] ∨ hdu < f.hdus.length) :
    ∃ f', reachHdu .write f hdu = .ok f' ∧ f'.cur = hdu ∧ f'.hdus.length = max f.hdus.length (hdu + 1) ∧
      (∀ k, k < f.hdus.length → f'.hdus[k]? = f.hdus[k]?) ∧ ∀ k, f.hdus.length ≤ k → k ≤ hdu → f'.hdus[k]? = some emptyHdu := by
  by_cases hh : hdu < f.hdus.length
  · exact ⟨_, reach_existing _ f hdu hh, rfl, by simp only; omega, fun _ _ => rfl, fun k h1 h2 => by omega⟩
  · obtain ⟨m, hm⟩ : ∃ m, hdu + 1 - f.hdus.length = m + 1 := ⟨hdu - f.hdus.length, by omega⟩
    have key : ∃ cur, insertN (hdu + 1 - f.hdus.length) f = ⟨f.hdus ++ List.replicate (hdu + 1 - f.hdus.length) emptyHdu, cur⟩ := by
      by_cases h0 : f.hdus = []
      · refine ⟨m, ?_⟩
        rw [hm, insertN_nil m f h0, h0, List.nil_append]
      · have hc : f.cur + 1 = f.hdus.length := by
          rcases h with h | h | h
          · exact h
          · exact absurd h h0
          · omega
        refine ⟨f.cur + (hdu + 1 - f.hdus.length), ?_⟩
        rw [insertN_spec _ f (by omega), hc, List.take_length, List.drop_length, List.append_nil]
    obtain ⟨cur, key⟩ := key
    rw [reach_new f hdu (by omega), key]
    refine ⟨⟨f.hdus ++ List.replicate (hdu + 1 - f.hdus.length) emptyHdu, hdu⟩, ?_, rfl, ?_, fun k hk => ?_, fun k h1 h2 => ?_⟩
    · unfold movabs
      rw [if_pos (by simp only [List.length_append, List.length_replicate]; omega)]
      rfl
    · simp only [List.length_append, List.length_replicate]; omega
    · exact List.getElem?_append_left hk
    · simp only
      rw [List.getElem?_append_right h1, List.getElem?_replicate, if_pos (by omega)]

/-- **C133** with an object that can only read, nothing is created -/
theorem C133_readonly (f : File α) (hdu : Nat) :
    (hdu < f.hdus.length → reachHdu .readOnly f hdu = .ok { f with cur := hdu }) ∧ (f.hdus.length ≤ hdu → reachHdu .readOnly f hdu = .abort) := by
  refine ⟨reach_existing _ f hdu, fun h => ?_⟩
  unfold reachHdu
  rw [if_pos rfl, Res.check_neg (by omega)]
  rfl

/-- Finding: if the current HDU is not the last one, those that come after it are moved to the end of the file, and the HDU reached is not a new one but
the one that was the last, with its data -/
theorem C133_reach_refuted (f : File α) (hdu : Nat) (h1 : f.cur + 1 < f.hdus.length) (h2 : f.hdus.length ≤ hdu) :
    ∃ f', reachHdu .write f hdu = .ok f' ∧ f'.cur = hdu ∧ f'.hdus[hdu]? = f.hdus[f.hdus.length - 1]? ∧
      (∀ k, f.cur < k → k < f.hdus.length → f'.hdus[k + (hdu + 1 - f.hdus.length)]? = f.hdus[k]?) ∧
      f'.hdus[f.cur + 1]? = some emptyHdu := by
  have hlen : (f.hdus.take (f.cur + 1)).length = f.cur + 1 := by rw [List.length_take]; omega
  have shift : ∀ k, f.cur < k → k < f.hdus.length →
      (f.hdus.take (f.cur + 1) ++ List.replicate (hdu + 1 - f.hdus.length) emptyHdu ++ f.hdus.drop (f.cur + 1))[k + (hdu + 1 - f.hdus.length)]? = f.hdus[k]? := by
    intro k h3 h4
    rw [List.getElem?_append_right (by rw [List.length_append, hlen, List.length_replicate]; omega), List.length_append, hlen, List.length_replicate,
      List.getElem?_drop]
    congr 1
    omega
  rw [reach_new f hdu h2, insertN_spec _ f (by omega)]
  refine ⟨⟨f.hdus.take (f.cur + 1) ++ List.replicate (hdu + 1 - f.hdus.length) emptyHdu ++ f.hdus.drop (f.cur + 1), hdu⟩, ?_, rfl, ?_, shift, ?_⟩
  · unfold movabs
    rw [if_pos]
    · rfl
    · simp only [List.length_append, hlen, List.length_replicate, List.length_drop]; omega
  · have := shift (f.hdus.length - 1) (by omega) (by omega)
    rw [← this]
    simp only
    congr 1
    omega
  · simp only
    rw [List.getElem?_append_left (by rw [List.length_append, hlen, List.length_replicate]; omega), List.getElem?_append_right (by omega), hlen,
      List.getElem?_replicate, if_pos (by omega)]

/-- Finding: after two images were written and the first one is current, a third one cannot be written by asking for the next HDU -/
theorem C133_third_refuted (z : α) (c : Conv α) (e : ET) (v w u : Vec α) (hv : Shaped v) (hw : Shaped w) (hu : Shaped u)
    (he : Exact (c.store (writtenAs e)) u.data) : ∃ f', reachHdu .write ⟨[imageOf e v, imageOf e w], 0⟩ 2 = .ok f' ∧ write z c f' e u = .abort ∧
      f'.hdus = [imageOf e v, emptyHdu, imageOf e w] := by
  refine ⟨⟨[imageOf e v, emptyHdu, imageOf e w], 2⟩, rfl, ?_, rfl⟩
  apply (C132_write z c _ e u (Or.inr (by simp)) hu he).2
  rintro (h | ⟨t, px, h⟩)
  · cases h
  · simp only [imageOf, List.getElem?_cons_succ, List.getElem?_cons_zero, Option.some.injEq, Hdu.image.injEq, List.reverse_eq_nil_iff] at h
    exact hw.1 h.2.1

/-- images written in the HDUs `k`, `k+1`, … -/
def writeFrom (z : α) (c : Conv α) : Nat → List (ET × Vec α) → File α → Res (File α)
  | _, [], f => .ok f
  | k, (e, v) :: l, f => do
    let f ← reachHdu .write f k
    let f ← write z c f e v
    writeFrom z c (k + 1) l f

theorem writeFrom_spec (z : α) (c : Conv α) : ∀ (l : List (ET × Vec α)) (f : File α), (f.hdus = [] ∨ f.cur + 1 = f.hdus.length) →
    (∀ x ∈ l, Shaped x.2 ∧ Exact (c.store (writtenAs x.1)) x.2.data) →
    ∃ f', writeFrom z c f.hdus.length l f = .ok f' ∧ f'.hdus = f.hdus ++ l.map fun x => imageOf x.1 x.2
  | [], f, _, _ => ⟨f, rfl, by simp⟩
  | (e, v) :: l, f, h, hl => by
    obtain ⟨hs, he⟩ := hl (e, v) (by simp)
    obtain ⟨g, g1, g2, g3, g4, g5⟩ := C133_reach_partial f f.hdus.length (h.symm.imp id Or.inl)
    have hgl : g.hdus.length = f.hdus.length + 1 := by rw [g3]; omega
    have hgv : Valid g := Or.inr (by rw [g2, g3]; omega)
    have hvac : Vacant g := Or.inr ⟨.float, [], by rw [g2]; exact g5 _ (Nat.le_refl _) (Nat.le_refl _)⟩
    obtain ⟨g', w1, w2, w3, w4, w5⟩ := (C132_write z c g e v hgv hs he).1 hvac
    have hg' : g'.hdus = f.hdus ++ [imageOf e v] := by
      apply List.ext_getElem?
      intro k
      rcases Nat.lt_trichotomy k f.hdus.length with hk | hk | hk
      · rw [w5 k (by omega), g4 k hk, List.getElem?_append_left hk]
      · rw [hk, ← g2, w3, g2]; simp
      · rw [List.getElem?_eq_none (by rw [w4]; omega), List.getElem?_eq_none (by simp; omega)]
    have hlen : g'.hdus.length = f.hdus.length + 1 := by rw [hg']; simp
    obtain ⟨f', h1, h2⟩ := writeFrom_spec z c l g' (Or.inr (by rw [w2, g2, hlen])) (fun x hx => hl x (by simp [hx]))
    refine ⟨f', ?_, ?_⟩
    · rw [writeFrom, g1, Res.ok_bind, w1, Res.ok_bind, ← hlen]
      exact h1
    · rw [h2, hg']
      simp

/-- **C133** any number of images written one after the other in the HDUs 0, 1, … of a new file can all be read back -/
theorem C133_sequence (z : α) (c : Conv α) (l : List (ET × Vec α))
    (hl : ∀ x ∈ l, x.1 ≠ .string ∧ Shaped x.2 ∧ Exact (c.store (writtenAs x.1)) x.2.data ∧ Exact (c.load x.1) x.2.data) :
    ∃ f, writeFrom z c 0 l ⟨[], 0⟩ = .ok f ∧ f.hdus.length = l.length ∧
      ∀ r k e v, l[k]? = some (e, v) → ∃ g, reachHdu r f k = .ok g ∧ read c g e v.dims.length = .ok v := by
  obtain ⟨f, h1, h2⟩ := writeFrom_spec z c l ⟨[], 0⟩ (Or.inl rfl) (fun x hx => ⟨(hl x hx).2.1, (hl x hx).2.2.1⟩)
  rw [List.nil_append] at h2
  refine ⟨f, h1, by rw [h2]; simp, fun r k e v hk => ?_⟩
  obtain ⟨hst, hs, -, he⟩ := hl (e, v) (List.mem_of_getElem? hk)
  have hkl : k < f.hdus.length := by
    rw [h2, List.length_map]
    by_contra hh
    rw [List.getElem?_eq_none (by omega)] at hk
    cases hk
  have hg : f.hdus[k]? = some (imageOf e v) := by rw [h2, List.getElem?_map, hk]; rfl
  refine ⟨_, reach_existing r f k hkl, ?_⟩
  have := ((C132_read c { f with cur := k } e v.dims.length).1 (writtenAs e) v.dims.reverse v.data hg (by simpa using hs.1)
      (by rw [prod_reverse]; exact hs.2) he).1 ⟨by simp, by cases e <;> first | rfl | exact absurd rfl hst⟩
  rw [this]
  simp

/-- **C133** removing an HDU that is not the first one: those after it are moved by one, and the current one is the next, or the last one. The first one is
replaced by one without data. -/
theorem C133_remove (f : File α) (h : f.cur < f.hdus.length) : ∃ f', removeHdu f = .ok f' ∧ f'.cur < f'.hdus.length ∧
    (∀ k, k < f.cur → f'.hdus[k]? = f.hdus[k]?) ∧
    (f.cur ≠ 0 → (∀ k, f.cur ≤ k → f'.hdus[k]? = f.hdus[k + 1]?) ∧ f'.hdus.length + 1 = f.hdus.length ∧
      (f.cur + 1 < f.hdus.length → f'.cur = f.cur) ∧ (f.cur + 1 = f.hdus.length → f'.cur + 1 = f.cur)) ∧
    (f.cur = 0 → f'.cur = 0 ∧ f'.hdus[0]? = some emptyHdu ∧ ∀ k, k ≠ 0 → f'.hdus[k]? = f.hdus[k]?) := by
  unfold removeHdu deleteHdu
  rw [if_neg (by omega)]
  by_cases h0 : f.cur = 0
  · rw [if_pos h0]
    refine ⟨_, rfl, ?_, fun k hk => by omega, fun hn => absurd h0 hn, fun _ => ⟨h0, rfl, fun k hk => ?_⟩⟩
    · simp [h0]
    · obtain ⟨j, rfl⟩ := Nat.exists_eq_succ_of_ne_zero hk
      simp
  · rw [if_neg h0]
    have hl : (f.hdus.eraseIdx f.cur).length + 1 = f.hdus.length := by
      rw [List.length_eraseIdx, if_pos h]; omega
    refine ⟨_, rfl, ?_, fun k hk => ?_, fun _ => ⟨fun k hk => ?_, hl, fun hh => ?_, fun hh => ?_⟩, fun hn => absurd hn h0⟩
    · simp only; omega
    · simp only
      rw [List.getElem?_eraseIdx, if_pos hk]
    · simp only
      rw [List.getElem?_eraseIdx, if_neg (by omega)]
    · simp only; omega
    · simp only; omega

/-- a 2 by 3 image and a vector of 2 elements in a file -/
example : ∃ f, writeFrom 0 ⟨fun _ a => .ok a, fun _ a => .ok a⟩ 0 [(.int, ⟨[1, 2, 3, 4, 5, 6], [2, 3]⟩), (.double, ⟨[7, 8], [2]⟩)] ⟨[], 0⟩ = Res.ok f ∧
    f = (⟨[.image .longlong [3, 2] [1, 2, 3, 4, 5, 6], .image .double [2] [7, 8]], 1⟩ : File Nat) ∧
    ∃ g, reachHdu .readOnly f 0 = .ok g ∧ read ⟨fun _ a => .ok a, fun _ a => .ok a⟩ g .int 2 = .ok ⟨[1, 2, 3, 4, 5, 6], [2, 3]⟩ :=
  ⟨_, rfl, rfl, _, rfl, rfl⟩

end Verif.FitsImage
