import Verif.Tools.Circles
import Verif.Astro.Ds9Props
import Verif.Astro.Ds9MaskProps
/-!
# Masks from region files (C192)
-/
namespace Verif.Circles
open Verif Verif.Str Verif.Astro Verif.Ds9

variable {K : Type}

/-! ### Specification -/

/-- what a line says -/
inductive Item where
  | skip
  | system (physical : Bool)
  | circle (a b c : Str)

/-- the lines of a region file -/
inductive Says : Str → Item → Prop
  | blank {l} : IsTrim blanks l [] → Says l .skip
  | comment {l t} : IsTrim blanks l t → t.head? = some '#' → Says l .skip
  | global (u) : Says (sGlobal ++ u) .skip
  | sky {l} : IsTrim blanks l "fk5".toList → Says l (.system false)
  | pixels {l} : IsTrim blanks l sPhysical → Says l (.system true)
  | other {t u ty} : '(' ∉ t → IsTrim blanks t ty → ty ≠ sCircle → ty ≠ [] → Says (t ++ '(' :: u) .skip
  | circle {t a b c a' b' c' rest} : IsTrim blanks t sCircle → (∀ x ∈ [a, b, c], ',' ∉ x ∧ ')' ∉ x) → IsTrim blanks a a' → IsTrim blanks b b' → IsTrim blanks c c' →
      Says (t ++ '(' :: (a ++ ',' :: (b ++ ',' :: c)) ++ ')' :: rest) (.circle a' b' c')

/-- the numbers of a circle: degrees or sexagesimal angles and a radius in arcseconds, or pixels -/
inductive IsCircle (env : Env K) : Bool → Str → Str → Str → Circ K → Prop
  | degrees {a b c x y r} : ':' ∉ a → env.num a = some x → env.num b = some y → env.num c = some r → IsCircle env false a b (c ++ ['"']) (x, y, r)
  | sexagesimal {a b c x y r} : ':' ∈ a → env.sex a b = some (x, y) → env.num c = some r → IsCircle env false a b (c ++ ['"']) (x, y, r)
  | pixels {a b c x y r} : ':' ∉ a → env.num a = some x → env.num b = some y → env.num c = some r → IsCircle env true a b c (x, y, r)

/-- the circles, from a system of coordinates to the last one -/
inductive Gives (env : Env K) : Bool → List Item → List (Circ K) → Bool → Prop
  | nil {p} : Gives env p [] [] p
  | skip {p items cs e} : Gives env p items cs e → Gives env p (.skip :: items) cs e
  | system {p items cs e} (q) : Gives env q items cs e → Gives env p (.system q :: items) cs e
  | circle {p a b c x items cs e} : IsCircle env p a b c x → Gives env p items cs e → Gives env p (.circle a b c :: items) (x :: cs) e

/-- the part of a pixel in a circle, in quarters: the corners of the pixel -/
def quarters [Field K] [LinearOrder K] (c : Circ K) (iy ix : Nat) : K :=
  if 0 < c.2.1 + c.2.2 ∧ 0 < c.1 + c.2.2 then (inCorners c.2.2 c.2.1 c.1 iy ix : K) / 4 else 0

/-! ### Helpers -/

theorem trim_is {s m : Str} (h : IsTrim blanks s m) : trim s blanks = .ok m := by
  obtain ⟨m', h1, h2⟩ := C36_trim s blanks
  rw [h1, isTrim_unique h2 h]

/-- the first character after the blanks -/
theorem head_trim {l m w u : Str} {c : Char} (h : IsTrim blanks l m) (hl : l = w ++ c :: u) (hw : ∀ x ∈ w, x ∈ blanks) (hc : c ∉ blanks) : m.head? = some c := by
  obtain ⟨x, y, e, hx, hy, h1, -⟩ := h
  cases m with
  | nil =>
    exfalso
    have : c ∈ x ++ [] ++ y := by rw [← e, hl]; simp
    simp only [List.append_nil, List.mem_append] at this
    rcases this with h | h
    exacts [hc (hx c h), hc (hy c h)]
  | cons d m =>
    have hd := h1 d rfl
    have e1 : l.dropWhile (· ∈ blanks) = d :: m ++ y := by
      rw [e, List.append_assoc, List.dropWhile_append_of_pos (by simpa using hx), List.cons_append, List.dropWhile_cons_of_neg (by simpa using hd)]
    have e2 : l.dropWhile (· ∈ blanks) = c :: u := by
      rw [hl, List.dropWhile_append_of_pos (by simpa using hw), List.dropWhile_cons_of_neg (by simpa using hc)]
    rw [e1] at e2
    exact congrArg some (List.cons.inj e2).1

theorem firstOf_paren {t u : Str} {c : Char} (h : c ∉ t) : firstOf (t ++ c :: u) [c] 0 = some t.length := by
  have := firstOf_append (d := []) (a := t) (c := c) (t := u) h
  simpa using this

/-- a text before a parenthesis: not blank, not global -/
theorem paren_line {t u ty : Str} (ht : IsTrim blanks t ty) (hne : ty ≠ []) :
    ∃ m, trim (t ++ '(' :: u) blanks = .ok m ∧ m.head? = ty.head? ∧ m ≠ [] := by
  obtain ⟨m, h1, h2⟩ := C36_trim (t ++ '(' :: u) blanks
  obtain ⟨c, s, rfl⟩ := List.exists_cons_of_ne_nil hne
  obtain ⟨x, y, e, hx, hy, h3, -⟩ := ht
  have := head_trim (c := c) (w := x) (u := s ++ y ++ '(' :: u) h2 (by rw [e]; simp) hx (h3 c rfl)
  refine ⟨m, h1, this, ?_⟩
  rintro rfl
  cases this

theorem readCircle_eq {env : Env K} {p : Bool} {a b c : Str} {x : Circ K} (h : IsCircle env p a b c x) : readCircle env p a b c = .ok (some x) := by
  have hcol : ∀ a : Str, ':' ∈ a → (firstOf a [':'] 0).isSome = true := by
    intro a ha
    obtain ⟨u, v, rfl, hu⟩ := List.eq_append_cons_of_mem ha
    rw [firstOf_paren hu]; rfl
  have hno : ∀ a : Str, ':' ∉ a → firstOf a [':'] 0 = none := fun a ha => firstOf_none 0 (by simpa using ha)
  unfold readCircle
  cases h with
  | @degrees a b c x y r h1 h2 h3 h4 =>
    rw [hno a h1, h2, h3]
    dsimp only
    rw [if_neg (by simp)]
    dsimp only
    rw [if_neg (by simp), (C36_erase_end c ['"']).1, Res.ok_bind, h4]
    rfl
  | @sexagesimal a b c x y r h1 h2 h3 =>
    rw [if_pos (hcol a h1), if_pos ((C36_ends_with _ _).2 ⟨c, rfl⟩), h2]
    dsimp only
    rw [if_neg (by simp), (C36_erase_end c ['"']).1, Res.ok_bind, h3]
    rfl
  | pixels h1 h2 h3 h4 =>
    rw [hno a h1, h2, h3]
    dsimp only
    rw [if_neg (by simp)]
    dsimp only
    rw [if_pos rfl, h4]
    rfl

theorem word_line (env : Env K) (s : St K) {l w : Str} (h : IsTrim blanks l w) (h0 : w ≠ []) (h1 : w.head? ≠ some '#') (h2 : ¬ sGlobal <+: l) (h3 : '(' ∉ l) :
    circleLine env s l = .ok (some (if w = "fk5".toList then { s with physical := false } else if w = sPhysical then { s with physical := true } else s)) := by
  unfold circleLine
  have hl : l ≠ [] := by
    rintro rfl
    obtain ⟨x, y, e, -⟩ := h
    have := List.nil_eq_append_iff.1 e
    exact h0 (List.append_eq_nil_iff.1 this.1).2
  rw [trim_is h, Res.ok_bind, if_neg (by rintro (e | e | e); exacts [hl e, h0 e, h1 e]), if_neg (by rw [C36_begins_with]; exact h2), firstOf_none 0 (by simpa using h3)]

/-- one line -/
theorem circleLine_eq (env : Env K) (s : St K) {l : Str} {i : Item} (h : Says l i) :
    circleLine env s l = match (generalizing := false) i with
      | .skip => .ok (some s)
      | .system q => .ok (some { s with physical := q })
      | .circle a b c => (readCircle env s.physical a b c).bind fun o => .ok (o.map fun x => { s with regs := s.regs ++ [x] }) := by
  have hword : ∀ (l w : Str), IsTrim blanks l w → ∀ c, c ∉ blanks → c ∉ w → c ∉ l := by
    rintro l w ⟨x, y, e, hx, hy, -⟩ c h1 h2 hc
    rw [e, List.mem_append, List.mem_append] at hc
    rcases hc with (hc | hc) | hc
    exacts [h1 (hx c hc), h2 hc, h1 (hy c hc)]
  have hglob : ∀ (l w : Str), IsTrim blanks l w → 'g' ∉ w → ¬ sGlobal <+: l := by
    rintro l w h hw ⟨u, hu⟩
    refine hword l w h 'g' (by decide) hw ?_
    rw [← hu]
    exact List.mem_append_left _ (by decide)
  have hnog : ∀ (t u ty : Str), IsTrim blanks t ty → 'g' ∉ ty → '(' ∉ t → ¬ sGlobal <+: t ++ '(' :: u := by
    rintro t u ty ht hg hp ⟨v, hv⟩
    have hgt := hword t ty ht 'g' (by decide) hg
    cases t with
    | nil =>
      have := congrArg List.head? hv
      simp [sGlobal] at this
    | cons d t =>
      have := congrArg List.head? hv
      simp only [sGlobal, List.cons_append, List.head?_cons] at this
      have hd : 'g' = d := by simpa using this
      exact hgt (by rw [← hd]; simp)
  cases h with
  | blank h => unfold circleLine; rw [trim_is h, Res.ok_bind, if_pos (Or.inr (Or.inl rfl))]
  | comment h h' => unfold circleLine; rw [trim_is h, Res.ok_bind, if_pos (Or.inr (Or.inr h'))]
  | global u =>
    unfold circleLine
    obtain ⟨m, hm, -⟩ := C36_trim (sGlobal ++ u) blanks
    rw [hm, Res.ok_bind]
    split
    · rfl
    · rw [if_pos ((C36_begins_with _ _).2 ⟨u, rfl⟩)]
  | sky h => rw [word_line env s h (by decide) (by decide) (hglob _ _ h (by decide)) (hword _ _ h '(' (by decide) (by decide))]; rfl
  | pixels h => rw [word_line env s h (by decide) (by decide) (hglob _ _ h (by decide)) (hword _ _ h '(' (by decide) (by decide))]; rfl
  | @other t u ty h1 h2 h3 h4 =>
    unfold circleLine
    obtain ⟨m, hm, -⟩ := C36_trim (t ++ '(' :: u) blanks
    rw [hm, Res.ok_bind]
    split
    · rfl
    · split
      · rfl
      · rw [firstOf_paren h1]
        dsimp only
        rw [substr_ok (Nat.zero_le _), Res.ok_bind, List.drop_zero, List.take_left, trim_is h2, Res.ok_bind, if_pos h3]
  | @circle t a b c a' b' c' rest h1 h2 h3 h4 h5 =>
    have hp : '(' ∉ t := hword t _ h1 '(' (by decide) (by decide)
    have ha := h2 a (by simp)
    have hb := h2 b (by simp)
    have hc := h2 c (by simp)
    generalize hA : a ++ ',' :: (b ++ ',' :: c) = A
    have hAp : ')' ∉ A := by
      rw [← hA]
      simp only [List.mem_append, List.mem_cons, not_or]
      exact ⟨ha.2, by decide, hb.2, by decide, hc.2⟩
    obtain ⟨m, hm, hmh, hmn⟩ := paren_line (u := A ++ ')' :: rest) h1 (by decide)
    have hline : t ++ '(' :: A ++ ')' :: rest = t ++ '(' :: (A ++ ')' :: rest) := by simp
    rw [hline]
    unfold circleLine
    rw [hm, Res.ok_bind, if_neg, if_neg, firstOf_paren hp]
    rotate_left
    · rw [C36_begins_with]; exact hnog t _ _ h1 (by decide) hp
    · rintro (e | e | e)
      · simp at e
      · exact hmn e
      · rw [hmh] at e; exact absurd e (by decide)
    dsimp only
    rw [substr_ok (Nat.zero_le _), Res.ok_bind, List.drop_zero, List.take_left, trim_is h1, Res.ok_bind, if_neg (by simp)]
    have e2 : firstOf (t ++ '(' :: (A ++ ')' :: rest)) [')'] (t.length + 1) = some (t.length + 1 + A.length) := by
      have := firstOf_append (d := t ++ ['(']) (a := A) (c := ')') (t := rest) hAp
      simpa using this
    rw [e2]
    unfold between
    dsimp only
    rw [substr_ok (by simp), Res.ok_bind]
    have e3 : ((t ++ '(' :: (A ++ ')' :: rest)).drop (t.length + 1)).take (t.length + 1 + A.length - (t.length + 1)) = A := by
      rw [show t ++ '(' :: (A ++ ')' :: rest) = (t ++ ['(']) ++ (A ++ ')' :: rest) by simp, show t.length + 1 = (t ++ ['(']).length by simp, List.drop_left]
      simp
    rw [e3]
    have e4 : split A [','] = .ok [a, b, c] := by
      have := C34_split_collapse [a, b, c] ',' (by simp) (fun x hx => (h2 x hx).1)
      rw [collapseSep_eq] at this
      rw [← hA]
      simpa [List.intercalate] using this
    rw [e4, Res.ok_bind, List.mapM_cons, trim_is h3, Res.ok_bind, List.mapM_cons, trim_is h4, Res.ok_bind, List.mapM_cons, trim_is h5, Res.ok_bind, List.mapM_nil]
    simp only [Res.pure_def, Res.ok_bind]
    cases readCircle env s.physical a' b' c' with
    | ok o => cases o <;> rfl
    | abort => rfl
    | ub => rfl
    | diverge => rfl

theorem circleLoop_eq (env : Env K) {lines : List Str} {items : List Item} (h : List.Forall₂ Says lines items) (p e : Bool) (cs acc : List (Circ K)) (hg : Gives env p items cs e) :
    circleLoop env ⟨p, acc⟩ lines = .ok (some ⟨e, acc ++ cs⟩) := by
  induction h generalizing p acc cs with
  | nil => cases hg; simp [circleLoop]
  | @cons l i lines items hl _ ih =>
    unfold circleLoop
    rw [circleLine_eq env _ hl]
    cases hg with
    | skip hg => exact ih p cs acc hg
    | system q hg => exact ih q cs acc hg
    | @circle _ a b c x _ cs _ hc hg =>
      dsimp only
      rw [readCircle_eq hc]
      have := ih p cs (acc ++ [x]) hg
      rw [List.append_assoc] at this
      exact this

theorem countP_le4 [Field K] [LinearOrder K] (r x y : K) (ix iy : Nat) : inCorners r x y ix iy ≤ 4 := by
  unfold inCorners
  exact List.countP_le_length.trans (by simp [pixelCorners])

/-! ### C192 -/

/-- The circles of a region file are read in order, each in the system of coordinates of the last line before it that names one (sky by default). -/
theorem C192_read (env : Env K) (lines : List Str) (items : List Item) (h : List.Forall₂ Says lines items) (cs : List (Circ K)) (e : Bool) (hg : Gives env false items cs e) :
    readCircles env lines = .ok (some (cs, e)) := by
  unfold readCircles
  rw [circleLoop_eq env h false e cs [] hg, Res.ok_bind]
  rfl

/-- Each pixel of the mask has the sum of the parts in the circles, at most 1. -/
theorem C192_mask [Field K] [LinearOrder K] [IsStrictOrderedRing K] [FloorRing K] (nx ny : Nat) (hnx : 0 < nx) (hny : 0 < ny) (hwx : nx < W64) (hwy : ny < W64)
    (regs : List (Circ K)) (hr : ∀ c ∈ regs, 0 ≤ c.2.2) :
    ∃ m, maskOf nx ny regs = .ok m ∧ m.WF ∧ m.nx = nx ∧ m.ny = ny ∧ ∀ iy ix, iy < nx → ix < ny → m.at iy ix = some (min 1 (regs.map fun c => quarters c iy ix).sum) := by
  have key : ∀ (regs : List (Circ K)) (v : Img K), v.WF → v.nx = nx → v.ny = ny → (∀ c ∈ regs, 0 ≤ c.2.2) →
      ∃ m, regs.foldlM (fun (m : Img K) c => do
        let d ← circularMask nx ny c.2.2 c.2.1 c.1
        .ok { m with px := List.zipWith (· + ·) m.px d.px }) v = .ok m ∧ m.WF ∧ m.nx = nx ∧ m.ny = ny ∧
        ∀ iy ix a, v.at iy ix = some a → m.at iy ix = some (a + (regs.map fun c => quarters c iy ix).sum) := by
    intro regs
    induction regs with
    | nil => intro v hw h1 h2 _; exact ⟨v, rfl, hw, h1, h2, fun iy ix a h => by simpa using h⟩
    | cons c regs ih =>
      intro v hw h1 h2 hr
      obtain ⟨d, d1, d2, d3, d4, d5⟩ := C116_circle_partial nx ny hnx hny hwx hwy c.2.2 c.2.1 c.1 (hr c (by simp))
      have hl : v.px.length = nx * ny := by rw [← h1, ← h2]; exact hw
      have hdl : d.px.length = nx * ny := by rw [← d3, ← d4]; exact d2
      obtain ⟨m, m1, m2, m3, m4, m5⟩ := ih { v with px := List.zipWith (· + ·) v.px d.px }
        (by show (List.zipWith _ _ _).length = v.nx * v.ny; rw [List.length_zipWith, hl, hdl, Nat.min_self, h1, h2]) h1 h2 (fun x hx => hr x (by simp [hx]))
      refine ⟨m, ?_, m2, m3, m4, fun iy ix a ha => ?_⟩
      · rw [List.foldlM_cons, d1]
        exact m1
      · obtain ⟨q1, q2⟩ := at_lt ha
        have hv := d5 iy ix (by omega) (by omega)
        have : Img.at { v with px := List.zipWith (· + ·) v.px d.px } iy ix = some (a + quarters c iy ix) := by
          unfold Img.at at ha hv ⊢
          simp only [if_pos (show iy < v.nx ∧ ix < v.ny from ⟨q1, q2⟩)] at ha ⊢
          rw [d3, d4, if_pos (show iy < nx ∧ ix < ny by omega)] at hv
          rw [h2] at ha ⊢
          rw [List.getElem?_zipWith, ha, hv]
          rfl
        rw [m5 iy ix _ this]
        simp [add_assoc]
  obtain ⟨m, m1, m2, m3, m4, m5⟩ := key regs (Img.fill nx ny 0) (fill_wf _ _ _) rfl rfl hr
  have hnn : ∀ iy ix, 0 ≤ (regs.map fun c => quarters c iy ix).sum := by
    intro iy ix
    apply List.sum_nonneg
    intro x hx
    obtain ⟨c, -, rfl⟩ := List.mem_map.1 hx
    unfold quarters
    split
    · positivity
    · exact le_refl _
  unfold maskOf
  rw [m1, Res.ok_bind]
  refine ⟨_, rfl, by show (List.map _ _).length = _; rw [List.length_map]; exact m2, m3, m4, fun iy ix h1 h2 => ?_⟩
  have := m5 iy ix 0 (by rw [fill_at, if_pos ⟨h1, h2⟩])
  rw [zero_add] at this
  have hn := hnn iy ix
  unfold Img.at at this ⊢
  simp only [m3, m4, if_pos (show iy < nx ∧ ix < ny from ⟨h1, h2⟩)] at this ⊢
  rw [List.getElem?_map, this, Option.map_some, if_neg (by linarith)]
  congr 1
  split
  · rw [min_eq_left (by linarith)]
  · rw [min_eq_right (by linarith)]

/-- A pixel with all its points in one of the circles has the value 1. A pixel without corners in any circle has the value 0. -/
theorem C192_full [Field K] [LinearOrder K] [IsStrictOrderedRing K] [FloorRing K] (nx ny : Nat) (hnx : 0 < nx) (hny : 0 < ny) (hwx : nx < W64) (hwy : ny < W64)
    (regs : List (Circ K)) (hr : ∀ c ∈ regs, 0 ≤ c.2.2) (iy ix : Nat) (h1 : iy < nx) (h2 : ix < ny) :
    ∃ m, maskOf nx ny regs = .ok m ∧
      ((∃ c ∈ regs, ∀ p : K × K, |p.1 - iy| ≤ 1 / 2 → |p.2 - ix| ≤ 1 / 2 → inDisc c.2.2 c.2.1 c.1 p) → m.at iy ix = some 1) ∧
      ((∀ c ∈ regs, ∀ p ∈ pixelCorners (K := K) iy ix, ¬ inDisc c.2.2 c.2.1 c.1 p) → m.at iy ix = some 0) := by
  obtain ⟨m, e1, -, -, -, e2⟩ := C192_mask nx ny hnx hny hwx hwy regs hr
  refine ⟨m, e1, ?_, ?_⟩
  · rintro ⟨c, hc, hp⟩
    obtain ⟨d, d1, d2, d3, d4, d5⟩ := C116_circle_partial nx ny hnx hny hwx hwy c.2.2 c.2.1 c.1 (hr c hc)
    have hd := (C116_full nx ny hwx hwy c.2.2 c.2.1 c.1 (hr c hc) iy ix h1 h2 d d1).2 hp
    rw [d5 iy ix h1 h2, Option.some.injEq] at hd
    have hq : quarters c iy ix = 1 := hd
    rw [e2 iy ix h1 h2, min_eq_left]
    have hnn : ∀ x ∈ regs.map fun c => quarters c iy ix, (0 : K) ≤ x := by
      intro x hx
      obtain ⟨c, -, rfl⟩ := List.mem_map.1 hx
      unfold quarters
      split
      · positivity
      · exact le_refl _
    exact List.single_le_sum hnn 1 (List.mem_map.2 ⟨c, hc, hq⟩)
  · intro hn
    rw [e2 iy ix h1 h2]
    have : (regs.map fun c => quarters (K := K) c iy ix).sum = 0 := by
      apply List.sum_eq_zero
      intro x hx
      obtain ⟨c, hc, rfl⟩ := List.mem_map.1 hx
      unfold quarters
      split
      · have : inCorners c.2.2 c.2.1 c.1 iy ix = 0 := by
          unfold inCorners
          rw [List.countP_eq_zero]
          intro p hp
          simpa using hn c hc p hp
        rw [this]; simp
      · rfl
    rw [this, min_eq_right zero_le_one]

/-- The circles in pixels for the mask: those of the file if the last system is that of the image, else from the sky. -/
theorem C192_pixels [Field K] [DecidableEq K] (env : Env K) (lines : List Str) (items : List Item) (h : List.Forall₂ Says lines items) (cs : List (Circ K)) (e : Bool)
    (hg : Gives env false items cs e) (w : Sky K) (s : K) (hs : w.aspix = some s) (hne : cs ≠ []) :
    pixelCircles env (some w) lines =
      .ok (some (if e then cs else cs.map fun c => ((w.ad2xy (c.1, c.2.1)).1 - 1, (w.ad2xy (c.1, c.2.1)).2 - 1, c.2.2 / s))) := by
  unfold pixelCircles
  rw [C192_read env lines items h cs e hg, Res.ok_bind]
  cases e with
  | true => rfl
  | false =>
    dsimp only
    rw [if_neg (by simp), hs]
    dsimp only
    rw [if_neg hne]
    rfl

/-- Circles on the sky are refused if the image has no coordinates or no pixel size; circles in pixels do not need them. -/
theorem C192_coordinates [Field K] [DecidableEq K] (env : Env K) (lines : List Str) (items : List Item) (h : List.Forall₂ Says lines items) (cs : List (Circ K)) (e : Bool)
    (hg : Gives env false items cs e) (sky : Option (Sky K)) (hn : ∀ w ∈ sky, w.aspix = none) :
    pixelCircles env sky lines = .ok (if e then some cs else none) := by
  unfold pixelCircles
  rw [C192_read env lines items h cs e hg, Res.ok_bind]
  cases e with
  | true => rfl
  | false =>
    cases sky with
    | none => rfl
    | some w =>
      dsimp only
      rw [if_neg (by simp), hn w rfl]
      rfl

/-- The same circle at pixel (x, y) gives two different masks: from the sky it is moved by one pixel to indices that begin at zero, from pixels it is not. -/
theorem C192_shift_refuted [Field K] [DecidableEq K] (env : Env K) (w : Sky K) (hw : w.aspix = some 1) (l1 l2 : List Str) (i1 i2 : List Item) (h1 : List.Forall₂ Says l1 i1)
    (h2 : List.Forall₂ Says l2 i2) (a d x y r : K) (hxy : w.ad2xy (a, d) = (x, y)) (g1 : Gives env false i1 [(a, d, r)] false) (g2 : Gives env false i2 [(x, y, r)] true) :
    pixelCircles env (some w) l1 = .ok (some [(x - 1, y - 1, r)]) ∧ pixelCircles env (some w) l2 = .ok (some [(x, y, r)]) := by
  rw [C192_pixels env l1 i1 h1 _ _ g1 w 1 hw (by simp), C192_pixels env l2 i2 h2 _ _ g2 w 1 hw (by simp)]
  simp [hxy]

/-- A sky circle followed by the word `physical` is taken in pixels. -/
theorem C192_system_refuted [Field K] [DecidableEq K] (env : Env K) (lines : List Str) (items : List Item) (h : List.Forall₂ Says lines items) (cs : List (Circ K)) (e : Bool)
    (hg : Gives env false items cs e) (hne : cs ≠ []) (w : Sky K) (s : K) (hs : w.aspix = some s) :
    pixelCircles env (some w) (lines ++ [sPhysical]) = .ok (some cs) := by
  have hw : Says sPhysical (.system true) := .pixels ⟨[], [], by simp, by simp, by simp, by decide, by decide⟩
  have hap : ∀ (p e : Bool) (items : List Item) (cs : List (Circ K)), Gives env p items cs e → Gives env p (items ++ [.system true]) cs true := by
    intro p e items cs hg
    induction hg with
    | nil => exact .system true .nil
    | skip _ ih => exact .skip ih
    | system q _ ih => exact .system q ih
    | circle hc _ ih => exact .circle hc ih
  rw [C192_pixels env (lines ++ [sPhysical]) (items ++ [.system true]) (List.rel_append h (.cons hw .nil)) cs true (hap _ _ _ _ hg) w s hs hne]
  rfl

/-- A file without circles stops the program, and so does a radius without unit. -/
theorem C192_empty_refuted [Field K] [DecidableEq K] (env : Env K) (lines : List Str) (items : List Item) (h : List.Forall₂ Says lines items)
    (hg : Gives env false items [] false) (w : Sky K) (s : K) (hs : w.aspix = some s) : pixelCircles env (some w) lines = .abort := by
  unfold pixelCircles
  rw [C192_read env lines items h [] false hg, Res.ok_bind]
  dsimp only
  rw [if_neg (by simp), hs]
  rfl

theorem C192_unit_refuted (env : Env K) (a b c : Str) (x y : K) (ha : ':' ∉ a) (hx : env.num a = some x) (hy : env.num b = some y) (hc : ¬ ['"'] <:+ c) :
    readCircle env false a b c = .abort := by
  unfold readCircle
  rw [show firstOf a [':'] 0 = none from firstOf_none 0 (by simpa using ha), hx, hy]
  dsimp only
  rw [if_neg (by simp)]
  dsimp only
  rw [if_neg (by simp), (C36_erase_end c ['"']).2.1.2 hc]
  rfl

/-- Two circles that cover the same half of a pixel count for the whole pixel. -/
theorem C192_overlap_refuted : ((maskOf (K := ℚ) 3 3 [(1 / 2, 1, 6 / 10)]).map fun m => m.at 1 1) = .ok (some (1 / 2)) ∧
    ((maskOf (K := ℚ) 3 3 [(1 / 2, 1, 6 / 10), (1 / 2, 1, 6 / 10)]).map fun m => m.at 1 1) = .ok (some 1) := by
  constructor <;> decide +kernel

/-- numbers of one digit, for the examples -/
def digits : Env ℚ where
  num := fun s => match s with
    | [c] => if c.isDigit then some ((c.toNat - '0'.toNat : Nat) : ℚ) else none
    | _ => none
  sex := fun _ _ => none

example : List.Forall₂ Says ["fk5".toList, "circle(3, 4,2\") # text={a}".toList] [.system false, .circle ['3'] ['4'] ['2', '"']] ∧
    Gives digits false [.system false, .circle ['3'] ['4'] ['2', '"']] [(3, 4, 2)] false := by
  have T : ∀ s m : Str, trim s blanks = .ok m → IsTrim blanks s m := by
    intro s m h
    obtain ⟨m', h1, h2⟩ := C36_trim s blanks
    rw [h1] at h
    exact Res.ok.inj h ▸ h2
  constructor
  · exact .cons (.sky (T _ _ (by decide))) (.cons (.circle (t := "circle".toList) (a := ['3']) (b := [' ', '4']) (c := ['2', '"']) (rest := " # text={a}".toList)
      (T _ _ (by decide)) (by decide) (T _ _ (by decide)) (T _ _ (by decide)) (T _ _ (by decide))) .nil)
  · exact .system false (.circle (.degrees (c := ['2']) (by decide) (by decide +kernel) (by decide +kernel) (by decide +kernel)) .nil)

end Verif.Circles
