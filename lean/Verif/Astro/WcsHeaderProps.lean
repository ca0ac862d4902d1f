import Verif.Astro.WcsHeader
import Verif.Io.HeaderProps
import Verif.Io.HeaderParseProps
import Verif.Str.SplitProps
import Mathlib.Data.List.Nodup
import Mathlib.Algebra.Field.Rat
/-!
# C122: making and filtering WCS headers
-/
namespace Verif.WcsHeader
open Verif Verif.Str Verif.Fits

variable {K : Type}

/-! ### Spec -/

/-- Spec: the keywords described by the parameters, with their value -/
def wanted [Field K] (f : Fmt K) (p : Params K) (k : Str) : Option Str :=
  if k = "CDELT1".toList then p.scale.map fun s => f.dbl (-s / 3600)
  else if k = "CDELT2".toList then p.scale.map fun s => f.dbl (s / 3600)
  else if k = "CTYPE1".toList then p.scale.map fun _ => "'RA---TAN'".toList
  else if k = "CTYPE2".toList then p.scale.map fun _ => "'DEC--TAN'".toList
  else if k = "EQUINOX".toList then p.scale.map fun _ => f.dbl 2000
  else if k = "CRPIX1".toList then p.px.bind fun x => p.py.map fun _ => f.dbl x
  else if k = "CRPIX2".toList then p.px.bind fun _ => p.py.map fun y => f.dbl y
  else if k = "CRVAL1".toList then p.ra.bind fun x => p.dec.map fun _ => f.dbl x
  else if k = "CRVAL2".toList then p.ra.bind fun _ => p.dec.map fun y => f.dbl y
  else if k = "NAXIS1".toList ∨ k = "META_1".toList then p.nx.bind fun x => p.ny.map fun _ => f.nat x
  else if k = "NAXIS2".toList ∨ k = "META_2".toList then p.nx.bind fun _ => p.ny.map fun y => f.nat y
  else if k = "NAXES".toList ∨ k = "META_0".toList then p.nx.bind fun _ => p.ny.map fun _ => f.nat 2
  else none

/-- Spec: texts that fit in a card -/
def Fits (t : Str) : Prop := '/' ∉ t ∧ t.length ≤ 67 ∧ strip t = t

/-- Spec: a header is made of whole cards, the last being `END` -/
def Header (cs : List Str) : Prop := (∀ c ∈ cs, c.length = 80) ∧ cs.getLast? = some endCard

/-! ### Setting several keys -/

/-- a key that can be set -/
def Key (k : Str) : Prop := k.length ≤ 8 ∧ '=' ∉ k ∧ strip k = k

instance (k : Str) : Decidable (Key k) := by unfold Key; infer_instance
instance (k : Str) : Decidable (Fits k) := by unfold Fits; infer_instance

theorem nameOf_end : nameOf endCard = none := by decide +kernel

theorem set_one {cs : List Str} (h : Header cs) {k v : Str} (hk : Key k) (hv : Fits v) :
    ∃ cs', setkey cs.flatten k v [] = .ok (some cs'.flatten) ∧ Header cs' ∧
      (∀ j, getkey cs'.flatten j = if j = k then .ok (some v) else getkey cs.flatten j) ∧
      cs'.filter (fun c => nameOf c ≠ some k) = cs.filter (fun c => nameOf c ≠ some k) := by
  obtain ⟨k1, k2, k3⟩ := hk
  obtain ⟨v1, v2, v3⟩ := hv
  obtain ⟨h1, h2⟩ := h
  have hpre : ['E', 'N', 'D'] <+: endCard := List.prefix_append ['E', 'N', 'D'] _
  have hlen : (newEntry k v []).length ≤ 80 := by
    rw [newEntry_eq, if_pos rfl, List.append_nil, base_length k v k1]; omega
  obtain ⟨a, b, n, e1, n1, n2, n3, hc, hg⟩ := C120_set_partial cs h1 k v [] k1 k2 k3 v1 hlen
    (fun _ e he _ => by rw [h2] at he; cases he; exact hpre) (fun _ _ _ _ _ _ => v2)
  refine ⟨a ++ n :: b, e1, ⟨?_, ?_⟩, fun j => by rw [hg j, v3], ?_⟩
  · intro c hc'
    rcases List.mem_append.1 hc' with h | h
    · rcases hc with ⟨-, e, -⟩ | ⟨old, e, -⟩ <;> exact h1 c (by rw [e]; simp [h])
    · rcases List.mem_cons.1 h with rfl | h
      · exact n1
      · rcases hc with ⟨-, e, -⟩ | ⟨old, e, -⟩ <;> exact h1 c (by rw [e]; simp [h])
  · rcases hc with ⟨-, e, -, hb, -⟩ | ⟨old, e, ho, -⟩
    · rw [hb endCard h2 hpre]; simp
    · cases b with
      | nil =>
        rw [e] at h2
        simp at h2
        rw [h2, nameOf_end] at ho
        cases ho
      | cons x b => rw [e] at h2; simpa using h2
  · rcases hc with ⟨-, e, -⟩ | ⟨old, e, ho, -⟩
    · rw [e]; simp [n2]
    · rw [e]; simp [n2, ho]

theorem setAll_spec : ∀ (l : List (Str × Str)), (l.map (·.1)).Nodup → (∀ kv ∈ l, Key kv.1 ∧ Fits kv.2) → ∀ cs : List Str, Header cs →
    ∃ cs', setAll l cs.flatten = .ok (true, cs'.flatten) ∧ Header cs' ∧
      (∀ j, getkey cs'.flatten j = match l.lookup j with | some v => .ok (some v) | none => getkey cs.flatten j) ∧
      cs'.filter (fun c => ∀ kv ∈ l, nameOf c ≠ some kv.1) = cs.filter (fun c => ∀ kv ∈ l, nameOf c ≠ some kv.1)
  | [], _, _, cs, h => ⟨cs, rfl, h, fun j => rfl, rfl⟩
  | (k, v) :: l, hn, hl, cs, h => by
    obtain ⟨hk, hv⟩ := hl (k, v) (by simp)
    obtain ⟨cs1, e1, h1, g1, f1⟩ := set_one h hk hv
    rw [List.map_cons, List.nodup_cons] at hn
    obtain ⟨cs2, e2, h2, g2, f2⟩ := setAll_spec l hn.2 (fun kv hkv => hl kv (by simp [hkv])) cs1 h1
    refine ⟨cs2, ?_, h2, fun j => ?_, ?_⟩
    · rw [setAll, e1]; exact e2
    · rw [g2 j, List.lookup_cons]
      by_cases hj : j = k
      · subst hj
        have : l.lookup j = none := by
          rw [List.lookup_eq_none_iff]
          intro p hp
          have : j ≠ p.1 := fun hh => hn.1 (List.mem_map.2 ⟨p, hp, hh.symm⟩)
          simpa using this
        rw [this]
        simp only [beq_self_eq_true]
        rw [g1, if_pos rfl]
      · have : (j == k) = false := by simpa using hj
        rw [this]
        cases l.lookup j with
        | some w => rfl
        | none => simp only [g1, if_neg hj]
    · have hf : ∀ x : List Str, x.filter (fun c => ∀ kv ∈ (k, v) :: l, nameOf c ≠ some kv.1) =
          (x.filter (fun c => nameOf c ≠ some k)).filter (fun c => ∀ kv ∈ l, nameOf c ≠ some kv.1) := by
        intro x
        rw [List.filter_filter]
        apply List.filter_congr
        intro c _
        rw [← Bool.decide_and, decide_eq_decide]
        constructor
        · intro h
          exact ⟨fun kv hkv => h kv (by simp [hkv]), h (k, v) (by simp)⟩
        · rintro ⟨h1, h2⟩ kv hkv
          rcases List.mem_cons.1 hkv with rfl | hkv
          · exact h2
          · exact h1 kv hkv
      have hc : ∀ x : List Str, (x.filter (fun c => nameOf c ≠ some k)).filter (fun c => ∀ kv ∈ l, nameOf c ≠ some kv.1) =
          (x.filter (fun c => ∀ kv ∈ l, nameOf c ≠ some kv.1)).filter (fun c => nameOf c ≠ some k) := by
        intro x
        rw [List.filter_filter, List.filter_filter]
        apply List.filter_congr
        intro c _
        rw [Bool.and_comm]
      rw [hf, hc, f2, ← hc, f1, ← hf]

variable [Field K]

def allKeys : List Str :=
  ["CDELT1".toList, "CDELT2".toList, "CTYPE1".toList, "CTYPE2".toList, "EQUINOX".toList] ++ (["CRPIX1".toList, "CRPIX2".toList] ++
    (["CRVAL1".toList, "CRVAL2".toList] ++ ["NAXES".toList, "NAXIS1".toList, "NAXIS2".toList, "META_0".toList, "META_1".toList, "META_2".toList]))

theorem keys_sub (f : Fmt K) (p : Params K) : ((keysOf f p).map (·.1)).Sublist allKeys := by
  unfold keysOf allKeys
  rw [List.map_append, List.map_append, List.map_append]
  refine List.Sublist.append ?_ (List.Sublist.append ?_ (List.Sublist.append ?_ ?_))
  · cases p.scale <;> simp [keysScale]
  · cases p.px <;> cases p.py <;> simp [keysPixel]
  · cases p.ra <;> cases p.dec <;> simp [keysSky]
  · cases p.nx <;> cases p.ny <;> simp [keysDims]

theorem keys_ok (f : Fmt K) (hd : ∀ x, Fits (f.dbl x)) (hn : ∀ n, Fits (f.nat n)) (p : Params K) :
    ((keysOf f p).map (·.1)).Nodup ∧ ∀ kv ∈ keysOf f p, Key kv.1 ∧ Fits kv.2 := by
  have hr : Fits "'RA---TAN'".toList := by decide +kernel
  have hdec : Fits "'DEC--TAN'".toList := by decide +kernel
  have hall : ∀ k ∈ allKeys, Key k := by decide +kernel
  refine ⟨(by decide +kernel : allKeys.Nodup).sublist (keys_sub f p), fun kv hkv => ⟨hall _ ((keys_sub f p).subset (List.mem_map.2 ⟨kv, hkv, rfl⟩)), ?_⟩⟩
  simp only [keysOf, List.mem_append] at hkv
  rcases hkv with h | h | h | h
  · revert h
    cases p.scale with
    | none => simp [keysScale]
    | some s =>
      simp only [keysScale, List.mem_cons, List.not_mem_nil, or_false]
      rintro (rfl | rfl | rfl | rfl | rfl)
      exacts [hd _, hd _, hr, hdec, hd _]
  · revert h
    cases p.px <;> cases p.py <;> simp only [keysPixel, List.mem_cons, List.not_mem_nil, or_false, false_imp_iff]
    rintro (rfl | rfl) <;> exact hd _
  · revert h
    cases p.ra <;> cases p.dec <;> simp only [keysSky, List.mem_cons, List.not_mem_nil, or_false, false_imp_iff]
    rintro (rfl | rfl) <;> exact hd _
  · revert h
    cases p.nx <;> cases p.ny <;> simp only [keysDims, List.mem_cons, List.not_mem_nil, or_false, false_imp_iff]
    rintro (rfl | rfl | rfl | rfl | rfl | rfl) <;> exact hn _

theorem lk (j k v : Str) (l : List (Str × Str)) : List.lookup j ((k, v) :: l) = if j = k then some v else List.lookup j l := by
  rw [List.lookup_cons]
  by_cases h : j = k
  · subst h; simp
  · have : (j == k) = false := by simpa using h
    rw [this, if_neg h]

theorem wanted_eq (f : Fmt K) (p : Params K) (k : Str) : (keysOf f p).lookup k = wanted f p k := by
  have e1 : (keysScale f p.scale).lookup k = if k = "CDELT1".toList then p.scale.map fun s => f.dbl (-s / 3600)
      else if k = "CDELT2".toList then p.scale.map fun s => f.dbl (s / 3600)
      else if k = "CTYPE1".toList then p.scale.map fun _ => "'RA---TAN'".toList
      else if k = "CTYPE2".toList then p.scale.map fun _ => "'DEC--TAN'".toList
      else if k = "EQUINOX".toList then p.scale.map fun _ => f.dbl 2000 else none := by
    cases p.scale <;> simp only [keysScale, lk, List.lookup_nil, Option.map_none, Option.map_some, ite_self]
  have e2 : (keysPixel f p.px p.py).lookup k = if k = "CRPIX1".toList then p.px.bind fun x => p.py.map fun _ => f.dbl x
      else if k = "CRPIX2".toList then p.px.bind fun _ => p.py.map fun y => f.dbl y else none := by
    cases p.px <;> cases p.py <;> simp only [keysPixel, lk, List.lookup_nil, Option.map_none, Option.map_some, Option.bind_none, Option.bind_some, ite_self]
  have e3 : (keysSky f p.ra p.dec).lookup k = if k = "CRVAL1".toList then p.ra.bind fun x => p.dec.map fun _ => f.dbl x
      else if k = "CRVAL2".toList then p.ra.bind fun _ => p.dec.map fun y => f.dbl y else none := by
    cases p.ra <;> cases p.dec <;> simp only [keysSky, lk, List.lookup_nil, Option.map_none, Option.map_some, Option.bind_none, Option.bind_some, ite_self]
  have e4 : (keysDims f p.nx p.ny).lookup k = if k = "NAXES".toList then p.nx.bind fun _ => p.ny.map fun _ => f.nat 2
      else if k = "NAXIS1".toList then p.nx.bind fun x => p.ny.map fun _ => f.nat x
      else if k = "NAXIS2".toList then p.nx.bind fun _ => p.ny.map fun y => f.nat y
      else if k = "META_0".toList then p.nx.bind fun _ => p.ny.map fun _ => f.nat 2
      else if k = "META_1".toList then p.nx.bind fun x => p.ny.map fun _ => f.nat x
      else if k = "META_2".toList then p.nx.bind fun _ => p.ny.map fun y => f.nat y else none := by
    cases p.nx <;> cases p.ny <;> simp only [keysDims, lk, List.lookup_nil, Option.map_none, Option.map_some, Option.bind_none, Option.bind_some, ite_self]
  unfold keysOf wanted
  rw [List.lookup_append, List.lookup_append, List.lookup_append, e1, e2, e3, e4]
  by_cases h : k ∈ allKeys
  · simp only [allKeys, List.mem_append, List.mem_cons, List.not_mem_nil, or_false] at h
    rcases h with (h | h | h | h | h) | (h | h) | (h | h) | (h | h | h | h | h | h) <;> subst h <;> simp
  · simp only [allKeys, List.mem_append, List.mem_cons, List.not_mem_nil, or_false, not_or] at h
    obtain ⟨⟨h1, h2, h3, h4, h5⟩, ⟨h6, h7⟩, ⟨h8, h9⟩, h10, h11, h12, h13, h14, h15⟩ := h
    simp only [h1, h2, h3, h4, h5, h6, h7, h8, h9, h10, h11, h12, h13, h14, h15, if_false, or_self, Option.or_none]

theorem header_end : Header [endCard] := by
  refine ⟨fun c hc => ?_, rfl⟩
  rw [List.mem_singleton] at hc
  subst hc
  decide +kernel

/-- **C122** `make_wcs_header` on an empty header or on one made of whole cards ended by `END`: it succeeds, every keyword described by the parameters has
its value, all the others keep theirs, the other cards are the same in the same order, and `END` is still the last card. The texts of the numbers must have no
slash and at most 67 characters. -/
theorem C122_make (f : Fmt K) (hd : ∀ x, Fits (f.dbl x)) (hn : ∀ n, Fits (f.nat n)) (p : Params K) (cs : List Str) (h : cs = [] ∨ Header cs) :
    ∃ cs', makeHeader f p cs.flatten = .ok (true, cs'.flatten) ∧ Header cs' ∧
      (∀ k, getkey cs'.flatten k = match wanted f p k with | some v => .ok (some v) | none => getkey cs.flatten k) ∧
      cs'.filter (fun c => ∀ k, nameOf c = some k → wanted f p k = none) =
        (if cs = [] then [endCard] else cs).filter (fun c => ∀ k, nameOf c = some k → wanted f p k = none) := by
  classical
  have key : ∀ cs, Header cs → ∃ cs', setAll (keysOf f p) cs.flatten = .ok (true, cs'.flatten) ∧ Header cs' ∧
      (∀ k, getkey cs'.flatten k = match wanted f p k with | some v => .ok (some v) | none => getkey cs.flatten k) ∧
      cs'.filter (fun c => ∀ k, nameOf c = some k → wanted f p k = none) = cs.filter (fun c => ∀ k, nameOf c = some k → wanted f p k = none) := by
    intro cs h
    obtain ⟨cs', e, h', g, fl⟩ := setAll_spec (keysOf f p) (keys_ok f hd hn p).1 (keys_ok f hd hn p).2 cs h
    refine ⟨cs', e, h', fun k => by rw [g k, wanted_eq], ?_⟩
    have : ∀ c : Str, (∀ k, nameOf c = some k → wanted f p k = none) ↔ ∀ kv ∈ keysOf f p, nameOf c ≠ some kv.1 := by
      intro c
      constructor
      · intro hc kv hkv hn
        have := hc kv.1 hn
        rw [← wanted_eq, List.lookup_eq_none_iff] at this
        have := this kv hkv
        simp at this
      · intro hc k hn
        rw [← wanted_eq, List.lookup_eq_none_iff]
        intro kv hkv
        have : k ≠ kv.1 := fun e => hc kv hkv (by rw [hn, e])
        simpa using this
    simp only [this]
    convert fl using 2
  unfold makeHeader
  rcases h with rfl | h
  · obtain ⟨cs', e, h', g, fl⟩ := key [endCard] header_end
    refine ⟨cs', by simpa using e, h', fun k => ?_, by rw [if_pos rfl]; exact fl⟩
    rw [g k]
    have : getkey ([endCard] : List Str).flatten k = getkey ([] : List Str).flatten k := by
      rw [C120_get, C120_get, cardsOf_flatten _ header_end.1, cardsOf_flatten _ (by simp), lookup_nil_card, lookup_nil_card, lookup_cons, nameOf_end]
      simp
    rw [this]
  · have hne : cs ≠ [] := by rintro rfl; exact absurd h.2 (by simp)
    have hfl : cs.flatten ≠ [] := by
      intro e
      have := flatten_length cs h.1
      rw [e, List.length_nil] at this
      have h1 := List.length_pos_of_ne_nil hne
      omega
    rw [if_neg hfl, if_neg hne]
    exact key cs h

/-- Finding: the number of axes is written in the keyword `NAXES`; `NAXIS`, the standard keyword, is never set -/
theorem C122_naxis_refuted (f : Fmt K) (hd : ∀ x, Fits (f.dbl x)) (hn : ∀ n, Fits (f.nat n)) (p : Params K) (cs : List Str) (h : cs = [] ∨ Header cs) :
    ∃ h', makeHeader f p cs.flatten = .ok (true, h') ∧ getkey h' "NAXIS".toList = getkey cs.flatten "NAXIS".toList := by
  obtain ⟨cs', e, -, g, -⟩ := C122_make f hd hn p cs h
  refine ⟨_, e, ?_⟩
  rw [g, show wanted f p "NAXIS".toList = none by unfold wanted; simp]

/-! ### Parameters as texts -/

/-- Spec: `npos`, the largest number, means that the dimension is not given -/
def dimOf (n : Nat) : Option Nat := if n < 18446744073709551615 then some n else none

/-- Spec: a text parameter `name:value` or `name:value,value` and its effect. The case of the name and blanks around it do not matter. -/
inductive Text (e : Env K) : Str → (Params K → Params K) → Prop
  | scale (k v : Str) (x : Option K) : ':' ∉ k → strip (toLower k) = "pixel_scale".toList → ':' ∉ v → e.num v = some x →
      Text e (k ++ ':' :: v) fun p => { p with scale := x }
  | pixel (k a b : Str) (x y : Option K) : ':' ∉ k → strip (toLower k) = "pixel_ref".toList → ':' ∉ a → ':' ∉ b → ',' ∉ a → ',' ∉ b → e.num a = some x →
      e.num b = some y → Text e (k ++ ':' :: (a ++ ',' :: b)) fun p => { p with px := x, py := y }
  | sky (k a b : Str) (x y : Option K) : ':' ∉ k → strip (toLower k) = "sky_ref".toList → ':' ∉ a → ':' ∉ b → ',' ∉ a → ',' ∉ b → e.num a = some x →
      e.num b = some y → Text e (k ++ ':' :: (a ++ ',' :: b)) fun p => { p with ra := x, dec := y }
  | dims (k a b : Str) (x y : Nat) : ':' ∉ k → strip (toLower k) = "dims".toList → ':' ∉ a → ':' ∉ b → ',' ∉ a → ',' ∉ b → e.nat a = some x →
      e.nat b = some y → x < 2 ^ 64 → y < 2 ^ 64 → Text e (k ++ ':' :: (a ++ ',' :: b)) fun p => { p with nx := dimOf x, ny := dimOf y }

theorem split_two (c : Char) (a b : Str) (ha : c ∉ a) (hb : c ∉ b) : split (a ++ c :: b) [c] = .ok [a, b] := by
  have h := C34_split_collapse [a, b] c (by simp) (by simp [ha, hb])
  rw [collapseSep_eq] at h
  simpa [List.intercalate] using h

omit [Field K] in
theorem parseOne_text {e : Env K} {s : Str} {g : Params K → Params K} (h : Text e s g) (p : Params K) : parseOne e p s = .ok (some (g p)) := by
  cases h with
  | scale k v x h1 h2 h3 h4 =>
    unfold parseOne
    rw [split_two ':' k v h1 h3]
    simp only [Res.ok_bind]
    rw [trim_strip, Res.ok_bind, h2, if_pos rfl, h4]
    rfl
  | pixel k a b x y h1 h2 h3 h4 h5 h6 h7 h8 =>
    unfold parseOne
    rw [split_two ':' k _ h1 (by simp [h3, h4])]
    simp only [Res.ok_bind]
    rw [trim_strip, Res.ok_bind, h2, if_neg (by decide +kernel), if_pos rfl]
    unfold pair
    rw [split_two ',' a b h5 h6]
    simp only [Res.ok_bind, h7, h8]
    rfl
  | sky k a b x y h1 h2 h3 h4 h5 h6 h7 h8 =>
    unfold parseOne
    rw [split_two ':' k _ h1 (by simp [h3, h4])]
    simp only [Res.ok_bind]
    rw [trim_strip, Res.ok_bind, h2, if_neg (by decide +kernel), if_neg (by decide +kernel), if_pos rfl]
    unfold pair
    rw [split_two ',' a b h5 h6]
    simp only [Res.ok_bind, h7, h8]
    rfl
  | dims k a b x y h1 h2 h3 h4 h5 h6 h7 h8 h9 h10 =>
    unfold parseOne
    rw [split_two ':' k _ h1 (by simp [h3, h4])]
    simp only [Res.ok_bind]
    rw [trim_strip, Res.ok_bind, h2, if_neg (by decide +kernel), if_neg (by decide +kernel), if_neg (by decide +kernel), if_pos rfl]
    unfold pair
    rw [split_two ',' a b h5 h6]
    simp only [Res.ok_bind, h7, h8]
    have hd : ∀ n, n < 2 ^ 64 → ofDim n = dimOf n := by
      intro n hn
      unfold ofDim dimOf
      by_cases h : n < 18446744073709551615
      · rw [if_pos h, if_neg (by omega)]
      · rw [if_neg h, if_pos (by omega)]
    simp only [hd _ h9, hd _ h10, Option.map_some]

/-- **C122** with texts of the documented form `make_wcs_header` does the same as with the numbers they give, in any order; of two texts for the same parameter
the last one is used -/
theorem C122_text (f : Fmt K) (e : Env K) (ps : List Str) (gs : List (Params K → Params K)) (h : List.Forall₂ (Text e) ps gs) (hdr : Str) :
    makeHeaderText f e ps hdr = makeHeader f (gs.foldl (fun p g => g p) {}) hdr := by
  have key : ∀ (ps : List Str) (gs : List (Params K → Params K)), List.Forall₂ (Text e) ps gs → ∀ p, parseAll e ps p = .ok (some (gs.foldl (fun p g => g p) p)) := by
    intro ps gs h
    induction h with
    | nil => intro p; rfl
    | cons h1 h2 ih =>
      intro p
      rw [parseAll, parseOne_text h1 p, Res.ok_bind]
      simp only
      rw [ih]; rfl
  unfold makeHeaderText
  rw [key ps gs h, Res.ok_bind]

theorem pair_total {α : Type} (num : Str → Option α) (s : Str) : ∃ r, pair num s = .ok r := by
  obtain ⟨l, e1, -⟩ := C34_split s [','] (by simp)
  unfold pair
  rw [e1, Res.ok_bind]
  split
  · split <;> exact ⟨_, rfl⟩
  · exact ⟨_, rfl⟩

omit [Field K] in
theorem parseOne_total (e : Env K) (p : Params K) (s : Str) : ∃ r, parseOne e p s = .ok r := by
  obtain ⟨l, e1, -⟩ := C34_split s [':'] (by simp)
  unfold parseOne
  rw [e1, Res.ok_bind]
  split
  · next k v =>
    rw [trim_strip, Res.ok_bind]
    obtain ⟨r1, h1⟩ := pair_total e.num v
    obtain ⟨r2, h2⟩ := pair_total e.nat v
    rw [h1, h2]
    split
    · exact ⟨_, rfl⟩
    · split
      · exact ⟨_, rfl⟩
      · split
        · exact ⟨_, rfl⟩
        · split <;> exact ⟨_, rfl⟩
  · exact ⟨_, rfl⟩

/-- Spec: two texts separated by a comma that are both numbers -/
def TwoNumbers {α : Type} (num : Str → Option α) (v : Str) : Prop := ∃ a b, v = a ++ ',' :: b ∧ ',' ∉ a ∧ ',' ∉ b ∧ (num a).isSome ∧ (num b).isSome

/-- Spec: texts that are not understood: not of the form `name:value`, unknown names, values that are not numbers -/
inductive Bad (e : Env K) : Str → Prop
  | form (s : Str) : s.count ':' ≠ 1 → Bad e s
  | name (k v : Str) : ':' ∉ k → ':' ∉ v → strip (toLower k) ∉ ["pixel_scale".toList, "pixel_ref".toList, "sky_ref".toList, "dims".toList] →
      Bad e (k ++ ':' :: v)
  | scale (k v : Str) : ':' ∉ k → ':' ∉ v → strip (toLower k) = "pixel_scale".toList → e.num v = none → Bad e (k ++ ':' :: v)
  | ref (k v : Str) : ':' ∉ k → ':' ∉ v → strip (toLower k) ∈ ["pixel_ref".toList, "sky_ref".toList] → ¬ TwoNumbers e.num v → Bad e (k ++ ':' :: v)
  | dims (k v : Str) : ':' ∉ k → ':' ∉ v → strip (toLower k) = "dims".toList → ¬ TwoNumbers e.nat v → Bad e (k ++ ':' :: v)

theorem split_pieces {s : Str} {c : Char} {l : List Str} (h : split s [c] = .ok l) : List.intercalate [c] l = s ∧ ∀ x ∈ l, c ∉ x := by
  obtain ⟨l', e1, e2⟩ := C34_split s [c] (by simp)
  rw [h] at e1
  cases e1
  refine ⟨isSplit_intercalate e2, fun x hx hm => ?_⟩
  obtain ⟨a, b, e⟩ := List.append_of_mem hm
  exact isSplit_pieces (by simp) e2 x hx ⟨a, b, by simp [e]⟩

theorem pair_bad {α : Type} {num : Str → Option α} {v : Str} (h : ¬ TwoNumbers num v) : pair num v = .ok none := by
  obtain ⟨l, e1, -⟩ := C34_split v [','] (by simp)
  obtain ⟨h1, h2⟩ := split_pieces e1
  unfold pair
  rw [e1, Res.ok_bind]
  split
  · next a b =>
    split
    · next x y hx hy =>
      exact absurd ⟨a, b, by rw [← h1]; simp [List.intercalate], h2 a (by simp), h2 b (by simp), by rw [hx]; rfl, by rw [hy]; rfl⟩ h
    · rfl
  · rfl

omit [Field K] in
theorem parseOne_bad {e : Env K} {s : Str} (h : Bad e s) (p : Params K) : parseOne e p s = .ok none := by
  cases h with
  | form _ hc =>
    obtain ⟨l, e1, e2⟩ := C34_split s [':'] (by simp)
    obtain ⟨h1, h3⟩ := split_pieces e1
    unfold parseOne
    rw [e1, Res.ok_bind]
    split
    · next k v =>
      refine absurd ?_ hc
      rw [← h1, show List.intercalate [':'] [k, v] = k ++ [':'] ++ v by simp [List.intercalate], List.count_append, List.count_append,
        List.count_eq_zero_of_not_mem (h3 k (by simp)), List.count_eq_zero_of_not_mem (h3 v (by simp))]
      rfl
    · rfl
  | name k v h1 h3 h2 =>
    simp only [List.mem_cons, List.not_mem_nil, or_false, not_or] at h2
    unfold parseOne
    rw [split_two ':' k v h1 h3]
    simp only [Res.ok_bind]
    rw [trim_strip, Res.ok_bind, if_neg h2.1, if_neg h2.2.1, if_neg h2.2.2.1, if_neg h2.2.2.2]
  | scale k v h1 h3 h2 h4 =>
    unfold parseOne
    rw [split_two ':' k v h1 h3]
    simp only [Res.ok_bind]
    rw [trim_strip, Res.ok_bind, h2, if_pos rfl, h4]
    rfl
  | ref k v h1 h3 h2 h4 =>
    unfold parseOne
    rw [split_two ':' k v h1 h3]
    simp only [Res.ok_bind]
    rw [trim_strip, Res.ok_bind, pair_bad h4]
    simp only [List.mem_cons, List.not_mem_nil, or_false] at h2
    rcases h2 with h2 | h2
    · rw [h2, if_neg (by decide +kernel), if_pos rfl]; rfl
    · rw [h2, if_neg (by decide +kernel), if_neg (by decide +kernel), if_pos rfl]; rfl
  | dims k v h1 h3 h2 h4 =>
    unfold parseOne
    rw [split_two ':' k v h1 h3]
    simp only [Res.ok_bind]
    rw [trim_strip, Res.ok_bind, pair_bad h4, h2, if_neg (by decide +kernel), if_neg (by decide +kernel), if_neg (by decide +kernel), if_pos rfl]
    rfl

/-- **C122** a text that is not understood is refused and the header is left unchanged, whatever the other texts -/
theorem C122_text_refused (f : Fmt K) (e : Env K) (ps : List Str) (s : Str) (hs : s ∈ ps) (hc : Bad e s) (hdr : Str) :
    makeHeaderText f e ps hdr = .ok (false, hdr) := by
  have key : ∀ (ps : List Str), s ∈ ps → ∀ p, parseAll e ps p = .ok none := by
    intro ps
    induction ps with
    | nil => intro h; cases h
    | cons t ps ih =>
      intro h p
      rw [parseAll]
      rcases List.mem_cons.1 h with rfl | h
      · rw [parseOne_bad hc]; rfl
      · obtain ⟨r, hr⟩ := parseOne_total e p t
        rw [hr, Res.ok_bind]
        cases r with
        | none => rfl
        | some p => exact ih h p
  unfold makeHeaderText
  rw [key ps hs, Res.ok_bind]

/-- the forms of texts that are refused -/
example (e : Env K) (h : e.num "x".toList = none) : Bad e "pixel_scale:x".toList ∧ Bad e "pixelscale:1".toList ∧ Bad e "dims:1,2,3".toList := by
  refine ⟨.scale "pixel_scale".toList "x".toList (by decide +kernel) (by decide +kernel) (by decide +kernel) h,
    .name "pixelscale".toList "1".toList (by decide +kernel) (by decide +kernel) (by decide +kernel),
    .dims "dims".toList "1,2,3".toList (by decide +kernel) (by decide +kernel) (by decide +kernel) ?_⟩
  rintro ⟨a, b, h1, h2, h3, -⟩
  have h4 := congrArg (List.count ',') h1
  rw [List.count_append, List.count_cons_self, List.count_eq_zero_of_not_mem h2, List.count_eq_zero_of_not_mem h3] at h4
  revert h4
  decide +kernel

theorem setAll_true : ∀ (l : List (Str × Str)) (h h' : Str), setAll l h = .ok (true, h') → ∀ kv ∈ l, (newEntry kv.1 kv.2 []).length ≤ 80
  | [], _, _, _, _, hm => by cases hm
  | (k, v) :: l, h, h', hs, kv, hm => by
    rw [setAll] at hs
    by_cases hl : 80 < (newEntry k v []).length
    · rw [C120_refused h k v [] (Or.inr hl), Res.ok_bind] at hs
      cases hs
    · rcases List.mem_cons.1 hm with rfl | hm
      · exact Nat.le_of_not_lt hl
      · cases hk : setkey h k v [] with
        | ok r =>
          rw [hk, Res.ok_bind] at hs
          cases r with
          | none => cases hs
          | some h1 => exact setAll_true l h1 h' hs kv hm
        | abort => rw [hk] at hs; cases hs
        | ub => rw [hk] at hs; cases hs
        | diverge => rw [hk] at hs; cases hs

/-- **C122** if one of the values is too long for a card, `make_wcs_header` does not report a success -/
theorem C122_long (f : Fmt K) (p : Params K) (hdr k v : Str) (hw : wanted f p k = some v) (hv : 70 < v.length) (h' : Str) :
    makeHeader f p hdr ≠ .ok (true, h') := by
  intro hm
  rw [← wanted_eq] at hw
  have hmem : (k, v) ∈ keysOf f p := by
    obtain ⟨l1, l2, h1, -⟩ := List.lookup_eq_some_iff.1 hw
    rw [h1]; simp
  have h8 : k.length ≤ 8 := ((by decide +kernel : ∀ k ∈ allKeys, Key k) k ((keys_sub f p).subset (List.mem_map.2 ⟨_, hmem, rfl⟩))).1
  have := setAll_true _ _ _ hm _ hmem
  rw [newEntry_eq, if_pos rfl, List.append_nil] at this
  simp only at this
  rw [base_length k v h8] at this
  omega

/-- the case can happen -/
example : wanted (K := ℚ) ⟨fun _ => List.replicate 71 '1', fun _ => []⟩ { ra := some 1, dec := some 2 } "CRVAL1".toList = some (List.replicate 71 '1') := by
  decide +kernel

/-! ### Filtering -/

/-- Spec: the beginnings of the names of the keywords of the WCS, and `END` -/
def wcsNames : List Str :=
  ["RA".toList, "DEC".toList, "EPOCH".toList, "EQUINOX".toList, "SECPIX".toList, "IMWCS".toList, "CD1_1".toList, "CD1_2".toList, "CD2_1".toList, "CD2_2".toList,
    "PC1_1".toList, "PC1_2".toList, "PC2_1".toList, "PC2_2".toList, "PC001001".toList, "PC001002".toList, "PC002001".toList, "PC002002".toList,
    "LATPOLE".toList, "LONPOLE".toList, "CTYPE".toList, "CRVAL".toList, "CDELT".toList, "CRPIX".toList, "CROTA".toList, "CUNIT".toList, "CO1_".toList,
    "CO2_".toList, "PROJP".toList, "PV1_".toList, "PV2_".toList, "END".toList]

theorem names_iff (c : Str) : (∃ w ∈ wcsNames, w <+: c) ↔ ∃ w ∈ wcsKeys, w <+: c := by
  have h1 : ∀ w ∈ wcsNames, w ∈ wcsKeys := by decide +kernel
  have h2 : ∀ w ∈ wcsKeys, ∃ v ∈ wcsNames, v <+: w := by decide +kernel
  constructor
  · rintro ⟨w, hw, hp⟩
    exact ⟨w, h1 w hw, hp⟩
  · rintro ⟨w, hw, hp⟩
    obtain ⟨v, hv, hp'⟩ := h2 w hw
    exact ⟨v, hv, hp'.trans hp⟩

/-- Spec: the number of keywords of the list with which a card begins -/
def hits (c : Str) : Nat := (wcsKeys.filter fun w => w.isPrefixOf c).length

theorem begins_eq (c w : Str) : beginsWith c w = w.isPrefixOf c := by
  rw [Bool.eq_iff_iff, C36_begins_with, List.isPrefixOf_iff_prefix]

theorem keepCards_eq (cs : List Str) : keepCards cs = cs.flatMap fun c => List.replicate (hits c) c := by
  have inner : ∀ (c : Str) (ws : List Str) (n : List Str), ws.foldl (fun n wk => if beginsWith c wk then n ++ [c] else n) n =
      n ++ List.replicate (ws.filter fun w => w.isPrefixOf c).length c := by
    intro c ws
    induction ws with
    | nil => intro n; simp
    | cons w ws ih =>
      intro n
      rw [List.foldl_cons, ih, begins_eq, List.filter_cons]
      split
      · rw [List.length_cons, List.replicate_succ, List.append_assoc]; rfl
      · rfl
  have outer : ∀ (cs : List Str) (n : List Str), cs.foldl (fun n k => wcsKeys.foldl (fun n wk => if beginsWith k wk then n ++ [k] else n) n) n =
      n ++ cs.flatMap fun c => List.replicate (hits c) c := by
    intro cs
    induction cs with
    | nil => intro n; simp
    | cons c cs ih =>
      intro n
      rw [List.foldl_cons, ih, inner, List.flatMap_cons, List.append_assoc]; rfl
  rw [keepCards, outer, List.nil_append]

/-- **C122** `filter_wcs` keeps, in their order, the cards that begin with one of the keywords of the list -/
theorem C122_filter_partial (cs : List Str) (h : ∀ c ∈ cs, c.length = 80) :
    ∃ cs', filterWcs cs.flatten = .ok cs'.flatten ∧ (∀ c ∈ cs', c.length = 80) ∧ (∀ c, c ∈ cs' ↔ c ∈ cs ∧ ∃ w ∈ wcsNames, w <+: c) ∧
      ((∀ c ∈ cs, ¬ "RADECSYS".toList <+: c ∧ ¬ "SECPIX".toList <+: c) → cs' = cs.filter fun c => ∃ w ∈ wcsNames, w <+: c) := by
  simp only [names_iff]
  refine ⟨cs.flatMap fun c => List.replicate (hits c) c, ?_, ?_, ?_, ?_⟩
  · unfold filterWcs
    rw [cut_flatten cs h, Res.ok_bind, keepCards_eq, C34_collapse]
  · intro c hc
    obtain ⟨d, hd, hc⟩ := List.mem_flatMap.1 hc
    rw [List.eq_of_mem_replicate hc]
    exact h d hd
  · intro c
    rw [List.mem_flatMap]
    constructor
    · rintro ⟨d, hd, hc⟩
      rw [List.mem_replicate] at hc
      obtain ⟨h0, rfl⟩ := hc
      obtain ⟨w, hw⟩ := List.exists_mem_of_length_pos (Nat.pos_of_ne_zero h0)
      rw [List.mem_filter] at hw
      exact ⟨hd, w, hw.1, List.isPrefixOf_iff_prefix.1 hw.2⟩
    · rintro ⟨hc, w, hw, hp⟩
      refine ⟨c, hc, List.mem_replicate.2 ⟨?_, rfl⟩⟩
      have : w ∈ wcsKeys.filter fun w => w.isPrefixOf c := List.mem_filter.2 ⟨hw, List.isPrefixOf_iff_prefix.2 hp⟩
      exact Nat.ne_of_gt (List.length_pos_of_mem this)
  · intro hn
    have one : ∀ c : Str, ¬ "RADECSYS".toList <+: c → ¬ "SECPIX".toList <+: c → hits c = if ∃ w ∈ wcsKeys, w <+: c then 1 else 0 := by
      intro c h1 h2
      split
      · next hw =>
        obtain ⟨w, hw, hp⟩ := hw
        have hpair : ∀ a ∈ wcsKeys, ∀ b ∈ wcsKeys, a <+: b → a = b ∨ b = "RADECSYS".toList := by decide +kernel
        have heq : ∀ v ∈ wcsKeys, v <+: c → v = w := by
          intro v hv hvp
          rcases Nat.le_total v.length w.length with hl | hl
          · rcases hpair v hv w hw (List.prefix_of_prefix_length_le hvp hp hl) with e | e
            · exact e
            · exact absurd (e ▸ hp) h1
          · rcases hpair w hw v hv (List.prefix_of_prefix_length_le hp hvp hl) with e | e
            · exact e.symm
            · exact absurd (e ▸ hvp) h1
        have hcount : ∀ a ∈ wcsKeys, a = "SECPIX".toList ∨ wcsKeys.count a = 1 := by decide +kernel
        have : hits c = wcsKeys.count w := by
          unfold hits
          rw [List.count_eq_length_filter]
          congr 1
          apply List.filter_congr
          intro v hv
          rw [Bool.eq_iff_iff, List.isPrefixOf_iff_prefix, beq_iff_eq]
          exact ⟨heq v hv, fun e => e ▸ hp⟩
        rw [this]
        rcases hcount w hw with e | e
        · exact absurd (e ▸ hp) h2
        · exact e
      · next hw =>
        unfold hits
        rw [List.length_eq_zero_iff, List.filter_eq_nil_iff]
        intro w hw' hp
        exact hw ⟨w, hw', List.isPrefixOf_iff_prefix.1 hp⟩
    clear h
    induction cs with
    | nil => rfl
    | cons c cs ih =>
      rw [List.flatMap_cons, ih (fun d hd => hn d (by simp [hd])), List.filter_cons, one c (hn c (by simp)).1 (hn c (by simp)).2]
      by_cases hw : ∃ w ∈ wcsKeys, w <+: c
      · rw [if_pos hw, if_pos (by simpa using hw)]; rfl
      · rw [if_neg hw, if_neg (by simpa using hw)]; rfl

theorem prefix_name {c key : Str} (hb : ∀ x, c.head? = some x → x ∉ blanks) (hn : nameOf c = some key) : key <+: c := by
  unfold nameOf at hn
  split at hn
  · simp only [Option.some.injEq] at hn
    rw [← hn]
    refine List.IsPrefix.trans ?_ (List.takeWhile_prefix (· ≠ '='))
    obtain ⟨a, b, e, h1, h2, h3, h4⟩ := strip_spec (c.takeWhile (· ≠ '='))
    cases a with
    | nil => rw [List.nil_append] at e; exact ⟨b, e.symm⟩
    | cons x a =>
      exfalso
      have h5 : (c.takeWhile (· ≠ '=')).head? = some x := by rw [e]; rfl
      have h6 : c.head? = some x := by
        obtain ⟨t, ht⟩ := List.takeWhile_prefix (l := c) (· ≠ '=')
        rw [← ht, List.head?_append, h5]; rfl
      exact hb x h6 (h1 x (by simp))
  · cases hn

/-- **C122** when no card begins with a blank, `filter_wcs` does not change the value of the keywords of its list (nor of those that begin with one of them) -/
theorem C122_filter_get (cs : List Str) (h : ∀ c ∈ cs, c.length = 80) (hb : ∀ c ∈ cs, ∀ x, c.head? = some x → x ∉ blanks) (key : Str)
    (hk : ∃ w ∈ wcsNames, w <+: key) : ∃ h', filterWcs cs.flatten = .ok h' ∧ getkey h' key = getkey cs.flatten key := by
  rw [names_iff] at hk
  have h80 : ∀ c ∈ cs.flatMap fun c => List.replicate (hits c) c, c.length = 80 := by
    intro c hc
    obtain ⟨d, hd, hc⟩ := List.mem_flatMap.1 hc
    rw [List.eq_of_mem_replicate hc]
    exact h d hd
  refine ⟨(cs.flatMap fun c => List.replicate (hits c) c).flatten, ?_, ?_⟩
  · unfold filterWcs
    rw [cut_flatten cs h, Res.ok_bind, keepCards_eq, C34_collapse]
  · rw [C120_get, C120_get, cardsOf_flatten _ h80, cardsOf_flatten _ h, lookup_nil_card, lookup_nil_card]
    congr 1
    clear h h80
    induction cs with
    | nil => rfl
    | cons c cs ih =>
      rw [List.flatMap_cons, lookup_append, ih (fun d hd => hb d (by simp [hd])), lookup_cons]
      by_cases hn : nameOf c = some key
      · obtain ⟨w, hw, hp⟩ := hk
        have : w ∈ wcsKeys.filter fun w => w.isPrefixOf c :=
          List.mem_filter.2 ⟨hw, List.isPrefixOf_iff_prefix.2 (hp.trans (prefix_name (hb c (by simp)) hn))⟩
        obtain ⟨n, hn'⟩ := Nat.exists_eq_succ_of_ne_zero (Nat.ne_of_gt (List.length_pos_of_mem this))
        rw [if_pos hn, show hits c = n + 1 from hn', List.replicate_succ, lookup_cons, if_pos hn]
        rfl
      · rw [if_neg hn, lookup_none.2 (fun d hd => by rw [List.eq_of_mem_replicate hd]; exact hn)]
        rfl

/-- Finding: a card that begins with two of the keywords of the list (`RADECSYS` begins with `RA`, and `SECPIX` is listed twice) is written twice -/
theorem C122_twice_refuted : filterWcs ("RADECSYS= 'FK5'".toList ++ List.replicate 65 ' ') =
    .ok ("RADECSYS= 'FK5'".toList ++ List.replicate 65 ' ' ++ "RADECSYS= 'FK5'".toList ++ List.replicate 65 ' ') := by decide +kernel

/-- Finding: cards that have nothing to do with the WCS are kept, if their name begins with the one of a WCS keyword -/
theorem C122_other_refuted : filterWcs ("DECONV  = T".toList ++ List.replicate 69 ' ' ++ "EXPTIME = 10".toList ++ List.replicate 68 ' ') =
    .ok ("DECONV  = T".toList ++ List.replicate 69 ' ') := by decide +kernel

/-- non trivial case: making a header, then filtering it -/
example : makeHeaderText (K := ℚ) ⟨fun x => if x = 1 then ['1'] else ['x'], fun n => if n = 2 then ['2'] else ['y']⟩
    ⟨fun s => if s = ['1'] then some (some 1) else none, fun s => if s = ['2'] then some 2 else none⟩ ["sky_ref:1,1".toList, "Dims :2,2".toList] [] =
    .ok (true, "CRVAL1  = 1".toList ++ List.replicate 69 ' ' ++ "CRVAL2  = 1".toList ++ List.replicate 69 ' ' ++
      "NAXES   = 2".toList ++ List.replicate 69 ' ' ++ "NAXIS1  = 2".toList ++ List.replicate 69 ' ' ++ "NAXIS2  = 2".toList ++ List.replicate 69 ' ' ++
      "META_0  = 2".toList ++ List.replicate 69 ' ' ++ "META_1  = 2".toList ++ List.replicate 69 ' ' ++ "META_2  = 2".toList ++ List.replicate 69 ' ' ++
      "END".toList ++ List.replicate 77 ' ') := by decide +kernel

/-- the conditions of `C122_make` on texts and headers can be met -/
example : Fits "-1.666666666666667e-05".toList ∧ Header ["SIMPLE  = T / standard".toList ++ List.replicate 58 ' ', endCard] := by
  refine ⟨by decide +kernel, ?_, rfl⟩
  decide +kernel

end Verif.WcsHeader
