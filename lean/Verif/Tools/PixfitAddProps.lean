import Verif.Tools.PixfitAdd
import Verif.Str.SplitProps
/-!
# Adding measurements to a catalogue (C188, C189)
-/
namespace Verif.Pixfit
open Verif Verif.Str

variable {V : Type}

/-! ### Specification -/

/-- what the arguments say -/
inductive Item (V : Type) where
  | band (name : Str)
  | flux (id : Nat) (f e : V)

/-- the arguments that say it: `band=name`, or three arguments -/
inductive Says (rdId : Str → Option Nat) (rdV : Str → Option V) : List Str → List (Item V) → Prop
  | nil : Says rdId rdV [] []
  | band (n : Str) {args items} : '=' ∉ n → Says rdId rdV args items → Says rdId rdV (("band=".toList ++ n) :: args) (.band n :: items)
  | flux {a b c : Str} {i : Nat} {f e : V} {args items} : '=' ∉ a → '=' ∉ b → '=' ∉ c → rdId a = some i → rdV b = some f → rdV c = some e →
      Says rdId rdV args items → Says rdId rdV (a :: b :: c :: args) (.flux i f e :: items)

/-- the last measurement given for a source and a band; `cur` is the band in use -/
def lastGiven (id : Nat) (band : Str) : Option Str → List (Item V) → Option (V × V)
  | _, [] => none
  | _, .band n :: items => lastGiven id band (some n) items
  | cur, .flux i f e :: items =>
    match lastGiven id band cur items with
    | some x => some x
    | none => if i = id ∧ cur = some band then some (f, e) else none

/-- the list of bands with the new ones at the end, in order -/
def withBands : List Str → List (Item V) → List Str
  | bs, [] => bs
  | bs, .band n :: items => withBands (if n ∈ bs then bs else bs ++ [n]) items
  | bs, .flux .. :: items => withBands bs items

/-- the measurement of a source in a band -/
def Measured (t : Fluxes V) (id : Nat) (band : Str) (x : V × V) : Prop :=
  ∃ (p b : Nat) (r r' : List V), position t.ids id = some p ∧ position t.bands band = some b ∧ t.flux[p]? = some r ∧ t.err[p]? = some r' ∧ r[b]? = some x.1 ∧ r'[b]? = some x.2

/-- the columns have the right sizes -/
def Sized (t : Fluxes V) : Prop :=
  t.flux.length = t.ids.length ∧ t.err.length = t.ids.length ∧ (∀ r ∈ t.flux, r.length = t.bands.length) ∧ ∀ r ∈ t.err, r.length = t.bands.length

/-- each flux comes after a band, and for a source of the catalogue -/
def Ready (ids : List Nat) : Bool → List (Item V) → Prop
  | _, [] => True
  | _, .band _ :: items => Ready ids true items
  | cur, .flux i _ _ :: items => cur = true ∧ i ∈ ids ∧ Ready ids cur items

/-! ### Helpers -/

section
variable {β : Type} [DecidableEq β]

theorem position_some {l : List β} {x : β} {p : Nat} (h : position l x = some p) : l[p]? = some x ∧ p < l.length := by
  induction l generalizing p with
  | nil => simp [position] at h
  | cons y l ih =>
    unfold position at h
    split at h
    · next hy => cases h; simp [hy]
    · rw [Option.map_eq_some_iff] at h
      obtain ⟨q, hq, rfl⟩ := h
      have := ih hq
      simpa using this

theorem position_none {l : List β} {x : β} : position l x = none ↔ x ∉ l := by
  induction l with
  | nil => simp [position]
  | cons y l ih =>
    unfold position
    split
    · next hy => simp [hy]
    · next hy => simp [ih, Ne.symm hy]

theorem position_append {l l' : List β} {x : β} (h : x ∈ l) : position (l ++ l') x = position l x := by
  induction l with
  | nil => simp at h
  | cons y l ih =>
    rw [List.cons_append]
    unfold position
    split
    · rfl
    · next hy =>
      rcases List.mem_cons.1 h with rfl | h
      · exact absurd rfl hy
      · rw [ih h]

theorem position_last {l : List β} {x : β} (h : x ∉ l) : position (l ++ [x]) x = some l.length := by
  induction l with
  | nil => simp [position]
  | cons y l ih =>
    rw [List.cons_append]
    unfold position
    rw [if_neg (fun e => h (by simp [e])), ih (fun e => h (by simp [e]))]
    simp

theorem position_mem {l : List β} {x : β} (h : x ∈ l) : ∃ p, position l x = some p := by
  cases hp : position l x with
  | none => exact absurd h (position_none.1 hp)
  | some p => exact ⟨p, rfl⟩

end

theorem split_one {a : Str} (h : '=' ∉ a) : split a ['='] = .ok [a] := by
  have := C34_split_collapse [a] '=' (by simp) (by simpa using h)
  rwa [collapseSep_eq, List.intercalate_singleton] at this

theorem split_two {a b : Str} (ha : '=' ∉ a) (hb : '=' ∉ b) : split (a ++ '=' :: b) ['='] = .ok [a, b] := by
  have := C34_split_collapse [a, b] '=' (by simp) (by simpa using ⟨ha, hb⟩)
  rw [collapseSep_eq] at this
  simpa [List.intercalate] using this

theorem band_split {n : Str} (h : '=' ∉ n) : split ("band=".toList ++ n) ['='] = .ok ["band".toList, n] :=
  split_two (a := "band".toList) (by decide) h

theorem setCell_ok {m : List (List V)} {p b : Nat} {v : V} {r : List V} (h : m[p]? = some r) (hb : b < r.length) :
    setCell m p (some b) v = .ok (m.set p (r.set b v)) := by
  unfold setCell
  dsimp only
  rw [h]
  dsimp only
  rw [Res.ok_bind, if_pos hb]

/-- one cell of a matrix after a cell was set -/
theorem get_set {m : List (List V)} {p b p' b' : Nat} {v : V} {r : List V} (h : m[p]? = some r) (hb : b < r.length) :
    ((m.set p (r.set b v))[p']?).bind (·[b']?) = if p' = p ∧ b' = b then some v else (m[p']?).bind (·[b']?) := by
  obtain ⟨hp, _⟩ := List.getElem?_eq_some_iff.1 h
  by_cases hpp : p' = p
  · subst hpp
    rw [List.getElem?_set_self hp, h]
    by_cases hbb : b' = b
    · subst hbb; simp [hb]
    · simp [hbb, List.getElem?_set_ne (Ne.symm hbb)]
  · rw [List.getElem?_set_ne (Ne.symm hpp), if_neg (by simp [hpp])]

theorem measured_iff {t : Fluxes V} {id : Nat} {band : Str} {x : V × V} : Measured t id band x ↔
    ∃ p b, position t.ids id = some p ∧ position t.bands band = some b ∧ (t.flux[p]?).bind (·[b]?) = some x.1 ∧ (t.err[p]?).bind (·[b]?) = some x.2 := by
  unfold Measured
  constructor
  · rintro ⟨p, b, r, r', h1, h2, h3, h4, h5, h6⟩
    exact ⟨p, b, h1, h2, by rw [h3]; exact h5, by rw [h4]; exact h6⟩
  · rintro ⟨p, b, h1, h2, h3, h4⟩
    rw [Option.bind_eq_some_iff] at h3 h4
    obtain ⟨r, h3, h5⟩ := h3
    obtain ⟨r', h4, h6⟩ := h4
    exact ⟨p, b, r, r', h1, h2, h3, h4, h5, h6⟩

theorem get_map_append (m : List (List V)) (n : Nat) (hm : ∀ r ∈ m, r.length = n) (v : V) (p b : Nat) (hp : p < m.length) :
    ((m.map (· ++ [v]))[p]?).bind (·[b]?) = if b = n then some v else (m[p]?).bind (·[b]?) := by
  have hr := hm m[p] (List.getElem_mem hp)
  rw [List.getElem?_map, List.getElem?_eq_getElem hp]
  simp only [Option.map_some, Option.bind_some]
  by_cases hb : b = n
  · rw [if_pos hb, hb, ← hr, List.getElem?_concat_length]
  · rw [if_neg hb]
    by_cases hlt : b < m[p].length
    · rw [List.getElem?_append_left hlt]
    · rw [List.getElem?_eq_none (by simp; omega), List.getElem?_eq_none (by omega)]

theorem sized_add {t : Fluxes V} (h : Sized t) (nan : V) (n : Str) : Sized (addBand nan t n) := by
  obtain ⟨h1, h2, h3, h4⟩ := h
  refine ⟨by simp [addBand, h1], by simp [addBand, h2], ?_, ?_⟩
  · intro r hr
    simp only [addBand, List.mem_map] at hr
    obtain ⟨q, hq, rfl⟩ := hr
    simp [addBand, h3 q hq]
  · intro r hr
    simp only [addBand, List.mem_map] at hr
    obtain ⟨q, hq, rfl⟩ := hr
    simp [addBand, h4 q hq]

/-- the measurements after a band is added -/
theorem measured_add {t : Fluxes V} (h : Sized t) (nan : V) (n : Str) (hn : n ∉ t.bands) (id : Nat) (hid : id ∈ t.ids) (band : Str) (x : V × V) :
    Measured (addBand nan t n) id band x ↔ if band = n then x = (nan, nan) else Measured t id band x := by
  obtain ⟨h1, h2, h3, h4⟩ := h
  obtain ⟨p, hp⟩ := position_mem hid
  have hpl := (position_some hp).2
  rw [measured_iff, measured_iff]
  have key : ∀ b, (((addBand nan t n).flux)[p]?).bind (·[b]?) = (if b = t.bands.length then some nan else (t.flux[p]?).bind (·[b]?)) ∧
      (((addBand nan t n).err)[p]?).bind (·[b]?) = (if b = t.bands.length then some nan else (t.err[p]?).bind (·[b]?)) := by
    intro b
    exact ⟨get_map_append _ _ h3 _ _ _ (by omega), get_map_append _ _ h4 _ _ _ (by omega)⟩
  by_cases hb : band = n
  · subst hb
    rw [if_pos rfl]
    have hpos : position (addBand nan t band).bands band = some t.bands.length := position_last hn
    constructor
    · rintro ⟨p', b, e1, e2, e3, e4⟩
      have : p' = p := by
        have : position t.ids id = some p' := e1
        rw [hp] at this; exact (Option.some.inj this).symm
      subst this
      rw [hpos] at e2
      obtain rfl := Option.some.inj e2
      rw [(key _).1, if_pos rfl] at e3
      rw [(key _).2, if_pos rfl] at e4
      ext
      · exact (Option.some.inj e3).symm
      · exact (Option.some.inj e4).symm
    · rintro rfl
      exact ⟨p, _, hp, hpos, by rw [(key _).1, if_pos rfl], by rw [(key _).2, if_pos rfl]⟩
  · rw [if_neg hb]
    have hpos : position (addBand nan t n).bands band = position t.bands band := by
      by_cases hm : band ∈ t.bands
      · exact position_append hm
      · rw [position_none.2 hm, position_none]
        simp only [addBand, List.mem_append, List.mem_singleton, not_or]
        exact ⟨hm, hb⟩
    have hids : (addBand nan t n).ids = t.ids := rfl
    rw [hids]
    constructor
    · rintro ⟨p', b, e1, e2, e3, e4⟩
      have : p' = p := by rw [hp] at e1; exact (Option.some.inj e1).symm
      subst this
      rw [hpos] at e2
      have hlt := (position_some e2).2
      rw [(key _).1, if_neg (by omega)] at e3
      rw [(key _).2, if_neg (by omega)] at e4
      exact ⟨p', b, e1, e2, e3, e4⟩
    · rintro ⟨p', b, e1, e2, e3, e4⟩
      have : p' = p := by rw [hp] at e1; exact (Option.some.inj e1).symm
      subst this
      have hlt := (position_some e2).2
      exact ⟨p', b, e1, by rw [hpos]; exact e2, by rw [(key _).1, if_neg (by omega)]; exact e3, by rw [(key _).2, if_neg (by omega)]; exact e4⟩

/-- the measurements after one is set -/
theorem measured_set {t : Fluxes V} (h : Sized t) {p b : Nat} {i : Nat} {n : Str} (hp : position t.ids i = some p) (hb : position t.bands n = some b) (f e : V) :
    ∃ t', setCell t.flux p (some b) f = .ok t'.flux ∧ setCell t.err p (some b) e = .ok t'.err ∧ t'.ids = t.ids ∧ t'.bands = t.bands ∧ Sized t' ∧
      ∀ id band x, Measured t' id band x ↔ if i = id ∧ n = band then x = (f, e) else Measured t id band x := by
  obtain ⟨h1, h2, h3, h4⟩ := h
  have hpl := position_some hp
  have hbl := position_some hb
  have q1 : t.flux[p]? = some (t.flux[p]'(by omega)) := List.getElem?_eq_getElem _
  have q2 : t.err[p]? = some (t.err[p]'(by omega)) := List.getElem?_eq_getElem _
  have l1 := h3 (t.flux[p]'(by omega)) (List.getElem_mem _)
  have l2 := h4 (t.err[p]'(by omega)) (List.getElem_mem _)
  refine ⟨⟨t.ids, t.bands, t.flux.set p ((t.flux[p]'(by omega)).set b f), t.err.set p ((t.err[p]'(by omega)).set b e)⟩,
    setCell_ok q1 (by omega), setCell_ok q2 (by omega), rfl, rfl, ⟨by simp [h1], by simp [h2], ?_, ?_⟩, ?_⟩
  · intro r hr
    rcases List.mem_or_eq_of_mem_set hr with hr | rfl
    · exact h3 r hr
    · simpa using l1
  · intro r hr
    rcases List.mem_or_eq_of_mem_set hr with hr | rfl
    · exact h4 r hr
    · simpa using l2
  · intro id band x
    rw [measured_iff, measured_iff]
    dsimp only
    have g1 := fun p' b' => get_set (p' := p') (b' := b') (v := f) q1 (show b < _ by omega)
    have g2 := fun p' b' => get_set (p' := p') (b' := b') (v := e) q2 (show b < _ by omega)
    simp only [g1, g2]
    by_cases hc : i = id ∧ n = band
    · obtain ⟨rfl, rfl⟩ := hc
      rw [if_pos ⟨rfl, rfl⟩]
      constructor
      · rintro ⟨p', b', e1, e2, e3, e4⟩
        rw [hp] at e1; rw [hb] at e2
        obtain rfl := Option.some.inj e1
        obtain rfl := Option.some.inj e2
        rw [if_pos ⟨rfl, rfl⟩] at e3 e4
        ext
        · exact (Option.some.inj e3).symm
        · exact (Option.some.inj e4).symm
      · rintro rfl
        exact ⟨p, b, hp, hb, by rw [if_pos ⟨rfl, rfl⟩], by rw [if_pos ⟨rfl, rfl⟩]⟩
    · rw [if_neg hc]
      have hne : ∀ p' b', position t.ids id = some p' → position t.bands band = some b' → ¬ (p' = p ∧ b' = b) := by
        rintro p' b' e1 e2 ⟨rfl, rfl⟩
        have a1 := (position_some e1).1
        have a2 := (position_some e2).1
        rw [hpl.1] at a1; rw [hbl.1] at a2
        exact hc ⟨Option.some.inj a1, Option.some.inj a2⟩
      constructor
      · rintro ⟨p', b', e1, e2, e3, e4⟩
        rw [if_neg (hne _ _ e1 e2)] at e3 e4
        exact ⟨p', b', e1, e2, e3, e4⟩
      · rintro ⟨p', b', e1, e2, e3, e4⟩
        exact ⟨p', b', e1, e2, by rw [if_neg (hne _ _ e1 e2)]; exact e3, by rw [if_neg (hne _ _ e1 e2)]; exact e4⟩

theorem withBands_mem (items : List (Item V)) (bs : List Str) : ∀ b ∈ bs, b ∈ withBands bs items := by
  induction items generalizing bs with
  | nil => intro b h; exact h
  | cons it items ih =>
    intro b h
    cases it with
    | band n =>
      refine ih _ b ?_
      split
      · exact h
      · simp [h]
    | flux i f e => exact ih _ b h

/-- the loop, from any state in which no measurement is being read -/
theorem addLoop_spec (rdId : Str → Option Nat) (rdV : Str → Option V) (nan : V) {args : List Str} {items : List (Item V)} (hs : Says rdId rdV args items)
    (s : AddState V) (cur : Option Str) (h0 : s.state = 0) (hz : Sized s.tab) (hcur : ∀ n, cur = some n → ∃ b, s.b = some b ∧ position s.tab.bands n = some b)
    (hr : Ready s.tab.ids cur.isSome items) :
    ∃ s', addLoop rdId rdV nan s args = .ok (some s') ∧ s'.tab.ids = s.tab.ids ∧ s'.tab.bands = withBands s.tab.bands items ∧ Sized s'.tab ∧
      ∀ id ∈ s.tab.ids, ∀ band x, Measured s'.tab id band x ↔
        match lastGiven id band cur items with
        | some y => x = y
        | none => if band ∈ s.tab.bands then Measured s.tab id band x else band ∈ s'.tab.bands ∧ x = (nan, nan) := by
  induction hs generalizing s cur with
  | nil =>
    refine ⟨s, rfl, rfl, rfl, hz, fun id hid band x => ?_⟩
    simp only [lastGiven]
    by_cases hb : band ∈ s.tab.bands
    · rw [if_pos hb]
    · rw [if_neg hb]
      constructor
      · rintro ⟨p, b, r, r', _, h2, _⟩
        exact absurd (List.mem_of_getElem? (position_some h2).1) hb
      · rintro ⟨h, _⟩; exact absurd h hb
  | @band n args items hn hs ih =>
    unfold addLoop
    have harg : ∃ s1, addArg rdId rdV nan s ("band=".toList ++ n) = .ok (some s1) ∧ s1.state = 0 ∧ Sized s1.tab ∧ s1.tab.ids = s.tab.ids ∧
        s1.tab.bands = (if n ∈ s.tab.bands then s.tab.bands else s.tab.bands ++ [n]) ∧ (∃ b, s1.b = some b ∧ position s1.tab.bands n = some b) ∧
        ∀ id ∈ s.tab.ids, ∀ band x, Measured s1.tab id band x ↔ if band = n ∧ n ∉ s.tab.bands then x = (nan, nan) else Measured s.tab id band x := by
      unfold addArg
      rw [band_split hn, Res.ok_bind]
      dsimp only
      rw [if_pos (by rfl)]
      by_cases hm : n ∈ s.tab.bands
      · obtain ⟨b, hb⟩ := position_mem hm
        rw [hb]
        refine ⟨_, rfl, rfl, hz, rfl, by rw [if_pos hm], ⟨b, rfl, hb⟩, fun id _ band x => by rw [if_neg (by simp [hm])]⟩
      · rw [position_none.2 hm]
        refine ⟨_, rfl, rfl, sized_add hz nan n, rfl, by rw [if_neg hm]; rfl, ⟨_, rfl, position_last hm⟩, fun id hid band x => ?_⟩
        rw [measured_add hz nan n hm id hid band x]
        simp [hm]
    obtain ⟨s1, e1, e2, e3, e4, e5, e6, e7⟩ := harg
    rw [e1, Res.ok_bind]
    dsimp only
    obtain ⟨s', f1, f2, f3, f4, f5⟩ := ih s1 (some n) e2 e3 (by rintro m ⟨⟩; exact e6) (by rw [e4]; exact hr)
    refine ⟨s', f1, by rw [f2, e4], by rw [f3, e5]; rfl, f4, fun id hid band x => ?_⟩
    rw [f5 id (by rw [e4]; exact hid) band x]
    change (match lastGiven id band (some n) items with | some y => x = y | none => _) ↔ (match lastGiven id band (some n) items with | some y => x = y | none => _)
    cases lastGiven id band (some n) items with
    | some y => exact Iff.rfl
    | none =>
      dsimp only
      rw [e7 id hid band x, e5]
      by_cases hm : n ∈ s.tab.bands
      · simp [hm]
      · by_cases hb : band = n
        · subst hb
          have : band ∈ s'.tab.bands := by
            rw [f3]
            exact withBands_mem _ _ _ (by rw [e5, if_neg hm]; simp)
          simp [hm, this]
        · simp [hm, hb]
  | @flux a b c i f e args items ha hb hc hi hf he hs ih =>
    obtain ⟨hcs, hii, hr'⟩ := hr
    obtain ⟨n, rfl⟩ := Option.isSome_iff_exists.1 hcs
    obtain ⟨bb, hbb, hbp⟩ := hcur n rfl
    obtain ⟨p, hp⟩ := position_mem hii
    obtain ⟨t', k1, k2, k3, k4, k5, k6⟩ := measured_set hz hp hbp f e
    have a1 : addArg rdId rdV nan s a = .ok (some { s with id := i, state := 1 }) := by
      unfold addArg; rw [split_one ha, Res.ok_bind]; dsimp only; rw [if_pos h0, hi]
    have a2 : addArg rdId rdV nan { s with id := i, state := 1 } b = .ok (some { s with id := i, flx := f, state := 2 }) := by
      unfold addArg; rw [split_one hb, Res.ok_bind]; dsimp only; rw [if_neg (by omega), if_pos rfl, hf]
    have a3 : addArg rdId rdV nan { s with id := i, flx := f, state := 2 } c = .ok (some { s with tab := { s.tab with flux := t'.flux, err := t'.err }, id := i, flx := f, state := 0 }) := by
      unfold addArg; rw [split_one hc, Res.ok_bind]; dsimp only; rw [if_neg (by omega), if_neg (by omega), he]
      dsimp only
      rw [hp]
      dsimp only
      rw [hbb, k1, Res.ok_bind, k2, Res.ok_bind]
    have ht : ({ s.tab with flux := t'.flux, err := t'.err } : Fluxes V) = t' := by
      obtain ⟨i', b', f', e'⟩ := t'
      simp only at k3 k4
      subst k3 k4
      rfl
    rw [ht] at a3
    unfold addLoop
    rw [a1, Res.ok_bind]
    dsimp only
    unfold addLoop
    rw [a2, Res.ok_bind]
    dsimp only
    unfold addLoop
    rw [a3, Res.ok_bind]
    dsimp only
    obtain ⟨s', f1, f2, f3, f4, f5⟩ := ih { s with tab := t', id := i, flx := f, state := 0 } (some n) rfl k5
      (by rintro m ⟨⟩; exact ⟨bb, hbb, by rw [k4]; exact hbp⟩) (by rw [k3]; exact hr')
    refine ⟨s', f1, by rw [f2, k3], by rw [f3, k4]; rfl, f4, fun id hid band x => ?_⟩
    rw [f5 id (by rw [k3]; exact hid) band x]
    simp only [lastGiven]
    cases lastGiven id band (some n) items with
    | some y => exact Iff.rfl
    | none =>
      dsimp only
      rw [k4, k6]
      by_cases hc : i = id ∧ n = band
      · obtain ⟨rfl, rfl⟩ := hc
        have : n ∈ s.tab.bands := List.mem_of_getElem? (position_some hbp).1
        simp [this]
      · rw [if_neg hc]
        have : ¬ (i = id ∧ some n = some band) := by
          rintro ⟨h1, h2⟩; exact hc ⟨h1, Option.some.inj h2⟩
        rw [if_neg this]

/-! ### C188 -/

/-- `pixfit-addflx`: each source has in each band the last measurement given for it, or else what it had, or nothing if the band is new. New bands are added at the
end in the order in which they are given, and the list of sources stays. -/
theorem C188_measured (rdId : Str → Option Nat) (rdV : Str → Option V) (nan : V) (t : Fluxes V) (args : List Str) (items : List (Item V)) (hs : Says rdId rdV args items)
    (hz : Sized t) (hr : Ready t.ids false items) :
    ∃ t', addFluxes rdId rdV nan t args = .ok (some t') ∧ t'.ids = t.ids ∧ t'.bands = withBands t.bands items ∧ Sized t' ∧
      ∀ id ∈ t.ids, ∀ band x, Measured t' id band x ↔
        match lastGiven id band none items with
        | some y => x = y
        | none => if band ∈ t.bands then Measured t id band x else band ∈ t'.bands ∧ x = (nan, nan) := by
  obtain ⟨s', h1, h2, h3, h4, h5⟩ := addLoop_spec rdId rdV nan hs ⟨t, none, 0, nan, 0⟩ none rfl hz (by rintro n ⟨⟩) hr
  exact ⟨s'.tab, by unfold addFluxes; rw [h1, Res.ok_bind]; rfl, h2, h3, h4, h5⟩

/-- A measurement for an unknown source is an error, and the file is left as it was. -/
theorem C188_unknown (rdId : Str → Option Nat) (rdV : Str → Option V) (nan : V) (t : Fluxes V) (args : List Str) (items : List (Item V)) (hs : Says rdId rdV args items)
    (hz : Sized t) (hr : Ready t.ids false items) (a b c : Str) (i : Nat) (f e : V) (rest : List Str) (ha : '=' ∉ a) (hb : '=' ∉ b) (hc : '=' ∉ c)
    (hi : rdId a = some i) (hf : rdV b = some f) (he : rdV c = some e) (hu : i ∉ t.ids) :
    addFluxes rdId rdV nan t (args ++ a :: b :: c :: rest) = .ok none := by
  obtain ⟨s', h1, h2, _⟩ := addLoop_spec rdId rdV nan hs ⟨t, none, 0, nan, 0⟩ none rfl hz (by rintro n ⟨⟩) hr
  have happ : ∀ (args : List Str) (s s1 : AddState V) (rest : List Str), addLoop rdId rdV nan s args = .ok (some s1) →
      addLoop rdId rdV nan s (args ++ rest) = addLoop rdId rdV nan s1 rest := by
    intro args
    induction args with
    | nil => intro s s1 rest h; simp only [addLoop, Res.ok.injEq, Option.some.injEq] at h; subst h; rfl
    | cons x args ih =>
      intro s s1 rest h
      rw [List.cons_append]
      unfold addLoop at h
      conv_lhs => unfold addLoop
      rw [Res.bind_eq_ok] at h
      obtain ⟨y, hy, h⟩ := h
      rw [hy, Res.ok_bind]
      cases y with
      | none => cases h
      | some s2 => exact ih s2 s1 rest h
  have hst : ∀ (s : AddState V) (args : List Str) (items : List (Item V)) (s1 : AddState V), Says rdId rdV args items → s.state = 0 →
      addLoop rdId rdV nan s args = .ok (some s1) → s1.state = 0 := by
    intro s args items s1 hs
    induction hs generalizing s with
    | nil => intro h0 h; simp only [addLoop, Res.ok.injEq, Option.some.injEq] at h; subst h; exact h0
    | @band n args items hn hs ih =>
      intro h0 h
      unfold addLoop at h
      rw [Res.bind_eq_ok] at h
      obtain ⟨y, hy, h⟩ := h
      cases y with
      | none => cases h
      | some s2 =>
        refine ih s2 ?_ h
        unfold addArg at hy
        rw [band_split hn, Res.ok_bind] at hy
        dsimp only at hy
        rw [if_pos (by rfl)] at hy
        split at hy <;> (simp only [Res.ok.injEq, Option.some.injEq] at hy; subst hy; rfl)
    | @flux a b c i f e args items ha hb hc hi hf he hs ih =>
      intro h0 h
      have a1 : addArg rdId rdV nan s a = .ok (some { s with id := i, state := 1 }) := by
        unfold addArg; rw [split_one ha, Res.ok_bind]; dsimp only; rw [if_pos h0, hi]
      have a2 : addArg rdId rdV nan { s with id := i, state := 1 } b = .ok (some { s with id := i, flx := f, state := 2 }) := by
        unfold addArg; rw [split_one hb, Res.ok_bind]; dsimp only; rw [if_neg (by omega), if_pos rfl, hf]
      unfold addLoop at h
      rw [a1, Res.ok_bind] at h
      dsimp only at h
      unfold addLoop at h
      rw [a2, Res.ok_bind] at h
      dsimp only at h
      unfold addLoop at h
      rw [Res.bind_eq_ok] at h
      obtain ⟨y, hy, h⟩ := h
      cases y with
      | none => cases h
      | some s2 =>
        refine ih s2 ?_ h
        unfold addArg at hy
        rw [split_one hc, Res.ok_bind] at hy
        dsimp only at hy
        rw [if_neg (by omega), if_neg (by omega), he] at hy
        dsimp only at hy
        split at hy
        · cases hy
        · rw [Res.bind_eq_ok] at hy
          obtain ⟨_, _, hy⟩ := hy
          rw [Res.bind_eq_ok] at hy
          obtain ⟨_, _, hy⟩ := hy
          simp only [Res.ok.injEq, Option.some.injEq] at hy
          subst hy
          rfl
  have h0 := hst _ _ _ _ hs rfl h1
  unfold addFluxes
  rw [happ _ _ _ _ h1]
  have a1 : addArg rdId rdV nan s' a = .ok (some { s' with id := i, state := 1 }) := by
    unfold addArg; rw [split_one ha, Res.ok_bind]; dsimp only; rw [if_pos h0, hi]
  have a2 : addArg rdId rdV nan { s' with id := i, state := 1 } b = .ok (some { s' with id := i, flx := f, state := 2 }) := by
    unfold addArg; rw [split_one hb, Res.ok_bind]; dsimp only; rw [if_neg (by omega), if_pos rfl, hf]
  have a3 : addArg rdId rdV nan { s' with id := i, flx := f, state := 2 } c = .ok none := by
    unfold addArg; rw [split_one hc, Res.ok_bind]; dsimp only; rw [if_neg (by omega), if_neg (by omega), he]
    dsimp only
    rw [h2, position_none.2 hu]
  unfold addLoop
  rw [a1, Res.ok_bind]
  dsimp only
  unfold addLoop
  rw [a2, Res.ok_bind]
  dsimp only
  unfold addLoop
  rw [a3, Res.ok_bind]
  rfl

/-- numbers of one digit, for the examples -/
def digitOf (s : Str) : Option Nat :=
  match s with
  | [c] => if c.isDigit then some (c.toNat - '0'.toNat) else none
  | _ => none

/-- a catalogue of two sources and one band -/
def exFluxes : Fluxes Nat := ⟨[1, 2], ["K".toList], [[5], [6]], [[1], [1]]⟩

/-- Without a band the program stops; a measurement without its uncertainty is lost without an error, also when a band comes after it. -/
theorem C188_refuted :
    addFluxes digitOf digitOf 0 exFluxes ["1".toList, "7".toList, "2".toList] = .abort ∧
    addFluxes digitOf digitOf 0 exFluxes ["band=K".toList, "1".toList, "7".toList] = .ok (some exFluxes) ∧
    addFluxes digitOf digitOf 0 exFluxes ["band=K".toList, "1".toList, "7".toList, "band=K".toList, "2".toList, "8".toList, "3".toList] =
      .ok (some ⟨[1, 2], ["K".toList], [[5], [8]], [[1], [3]]⟩) := by
  have h1 : ∀ c : Char, c ≠ '=' → split [c] ['='] = .ok [[c]] := fun c hc => split_one (by simpa using Ne.symm hc)
  have hb : split "band=K".toList ['='] = .ok ["band".toList, "K".toList] := band_split (n := "K".toList) (by decide)
  refine ⟨?_, ?_, ?_⟩
  all_goals
    unfold addFluxes exFluxes
    simp only [addLoop, addArg, show "1".toList = ['1'] from rfl, show "2".toList = ['2'] from rfl, show "7".toList = ['7'] from rfl, show "8".toList = ['8'] from rfl,
      show "3".toList = ['3'] from rfl, h1 '1' (by decide), h1 '2' (by decide), h1 '7' (by decide), h1 '8' (by decide), h1 '3' (by decide), hb, Res.ok_bind]
    decide +kernel

example : Sized exFluxes ∧ Ready exFluxes.ids false [Item.band "H".toList, .flux 2 7 1] ∧
    Says digitOf digitOf ["band=H".toList, "2".toList, "7".toList, "1".toList] [Item.band "H".toList, .flux 2 7 1] :=
  ⟨⟨rfl, rfl, by decide, by decide⟩, ⟨rfl, by decide, trivial⟩,
    .band "H".toList (by decide) (.flux (by decide) (by decide) (by decide) (by decide) (by decide) (by decide) .nil)⟩

end Verif.Pixfit
