import Verif.Astro.Sex
import Mathlib.Tactic.Linarith
import Mathlib.Tactic.FieldSimp
import Mathlib.Tactic.NormNum
import Mathlib.Tactic.Ring
import Mathlib.Tactic.LinearCombination
import Mathlib.Tactic.IntervalCases
import Mathlib.Data.Rat.Floor
/-!
# C105: sexagesimal coordinates

An angle "h:m:s" stands for `h + m/60 + s/3600` with the sign written in front.
-/
namespace Verif.Sex
open Verif Verif.Str Verif.Io

variable {K : Type} [Field K] [LinearOrder K] [IsStrictOrderedRing K] [FloorRing K]

/-! ### integers as text -/

theorem isDigit_not_isSp {c : Char} (h : c.isDigit = true) : isSp c = false := by
  by_contra hc
  simp only [isSp, Bool.or_eq_true, decide_eq_true_eq, Bool.not_eq_false] at hc
  rcases hc with ((((hc | hc) | hc) | hc) | hc) | hc <;> subst hc <;> revert h <;> decide

/-- a text which neither starts nor ends with a space is not trimmed -/
theorem trim_id {s : Str} (hs : ∀ c ∈ s, isSp c = false) : ((s.dropWhile isSp).reverse.dropWhile isSp).reverse = s := by
  have h1 : ∀ t : Str, (∀ c ∈ t, isSp c = false) → t.dropWhile isSp = t := by
    intro t ht
    cases t with
    | nil => rfl
    | cons a t => rw [List.dropWhile_cons_of_neg (by simp [ht a (by simp)])]
  rw [h1 s hs, h1 s.reverse (fun c hc => hs c (List.mem_reverse.1 hc)), List.reverse_reverse]

theorem parseNat_digits {s : Str} (h0 : s ≠ []) (hs : Digits s) : parseNat s = some (val s) := by
  unfold parseNat
  rw [if_pos ⟨h0, by rw [List.all_eq_true]; exact hs⟩]
  rfl

theorem parseInt_digits {s : Str} (h0 : s ≠ []) (hs : Digits s) : parseInt s = some (val s : Int) := by
  unfold parseInt
  split
  · have := hs '-' (by simp)
    exact absurd this (by decide)
  · have := hs '+' (by simp)
    exact absurd this (by decide)
  · rw [parseNat_digits h0 hs]; rfl

theorem dec_ne_nil (n : Nat) : dec n ≠ [] := by simpa [dec] using Nat.toDigits_ne_nil

/-- reading back a number written with leading zeros -/
theorem fromInt_align {n w : Nat} (h : (n : Int) < 2 ^ 63) : fromInt (alignRight (dec n) w '0') = some (n : Int) := by
  have hd := digits_align n w
  have h0 : alignRight (dec n) w '0' ≠ [] := by
    unfold alignRight
    split
    · simp [dec_ne_nil]
    · exact dec_ne_nil n
  unfold fromInt
  rw [trim_id (fun c hc => isDigit_not_isSp (hd c hc)), parseInt_digits h0 hd, val_align]
  rw [Option.filter_some, if_pos]
  simp only [decide_eq_true_eq]
  omega

theorem fromInt_decInt {z : Int} (h1 : -2 ^ 63 ≤ z) (h2 : z < 2 ^ 63) : fromInt (decInt z) = some z := by
  unfold decInt
  split
  · rename_i hz
    unfold fromInt
    rw [trim_id, parseInt, parseNat_digits (dec_ne_nil _) (digits_dec _), val_dec]
    · simp only [Option.map_some]
      rw [show -((z.natAbs : Nat) : Int) = z by omega, Option.filter_some, if_pos]
      simp only [decide_eq_true_eq]
      exact ⟨h1, h2⟩
    · intro c hc
      rcases List.mem_cons.1 hc with rfl | hc
      · decide
      · exact isDigit_not_isSp (digits_dec _ c hc)
  · rename_i hz
    have := fromInt_align (n := z.natAbs) (w := 0) (by omega)
    rw [alignRight, if_neg (by omega)] at this
    rw [this]
    congr 1
    omega

theorem colon_decInt (z : Int) : ':' ∉ decInt z := by
  have : ∀ n, ':' ∉ dec n := fun n hc => by have := digits_dec n _ hc; revert this; decide
  unfold decInt
  split
  · simp [this]
  · exact this _

theorem colon_align (n w : Nat) : ':' ∉ alignRight (dec n) w '0' := fun hc => by
  have := digits_align n w _ hc; revert this; decide

theorem colon_formatSec {s : Str} (h : ':' ∉ s) : ':' ∉ formatSec s := by
  unfold formatSec
  split
  · split <;> simp [h]
  · split <;> simp [h]

/-! ### reading -/

/-- the text "a:b:c" -/
def colons (a b c : Str) : Str := a ++ [':'] ++ b ++ [':'] ++ c

theorem split_colons {a b c : Str} (ha : ':' ∉ a) (hb : ':' ∉ b) (hc : ':' ∉ c) : split (colons a b c) [':'] = .ok [a, b, c] := by
  have := C34_split_collapse [a, b, c] ':' (by simp) (by simp [ha, hb, hc])
  rw [collapseSep_eq] at this
  rw [← this]
  simp [colons, List.intercalate]

/-- `s` is the text of the angle with components `h`, `m`, `sec` -/
def IsSex (pd : Str → Option K) (s : Str) (h m : Int) (sec : K) : Prop :=
  ∃ a b c, s = colons a b c ∧ ':' ∉ a ∧ ':' ∉ b ∧ ':' ∉ c ∧ fromInt a = some h ∧ fromInt b = some m ∧ pd c = some sec

/-- the angle with these components: the sign of the first applies to the whole -/
def angle (h m : Int) (sec : K) : K := if 0 ≤ h then h + m / 60 + sec / 3600 else -(-h + m / 60 + sec / 3600)

omit [FloorRing K] in
theorem value_eq (h m : Int) (s : K) : value (h, m, s) = angle h m s := by
  unfold value angle sgn
  by_cases hh : 0 ≤ h
  · simp [hh]
  · simp [hh]; ring

omit [LinearOrder K] [IsStrictOrderedRing K] [FloorRing K] in
theorem comps_split (pd : Str → Option K) (s : Str) (l : List Str) (h : split s [':'] = .ok l) (p : Int × Int × K) :
    comps pd l = some p ↔ IsSex pd s p.1 p.2.1 p.2.2 := by
  constructor
  · intro hp
    obtain ⟨h1, h2, _⟩ := C34_collapse_split s [':'] l (by simp) h
    unfold comps at hp
    split at hp
    · rename_i a b c _
      have hn : ∀ x ∈ [a, b, c], ':' ∉ x := by
        intro x hx hc
        refine h2 x hx ?_
        obtain ⟨u, v, rfl⟩ := List.append_of_mem hc
        exact ⟨u, v, by simp⟩
      split at hp
      · rename_i h m s' e1 e2 e3
        rw [Option.some.injEq] at hp
        subst hp
        refine ⟨a, b, c, ?_, hn a (by simp), hn b (by simp), hn c (by simp), e1, e2, e3⟩
        rw [← h1, collapseSep_eq]
        simp [colons, List.intercalate]
      · simp at hp
    · simp at hp
  · rintro ⟨a, b, c, rfl, ha, hb, hc, e1, e2, e3⟩
    rw [split_colons ha hb hc, Res.ok.injEq] at h
    subst h
    simp [comps, e1, e2, e3]

/-- C105: texts "h:m:s" are read as the angle they stand for, right ascensions being in hours. -/
theorem C105_parse {pd : Str → Option K} {sra sdec : Str} {h m h' m' : Int} {s s' : K} (hr : IsSex pd sra h m s) (hd : IsSex pd sdec h' m' s') :
    sex2deg pd sra sdec = .ok (true, some (15 * angle h m s), some (angle h' m' s')) := by
  obtain ⟨l, hl, _⟩ := C34_split sra [':'] (by simp)
  obtain ⟨l', hl', _⟩ := C34_split sdec [':'] (by simp)
  unfold sex2deg
  rw [hl, hl', Res.ok_bind, Res.ok_bind, (comps_split pd sra l hl (h, m, s)).2 hr, (comps_split pd sdec l' hl' (h', m', s')).2 hd]
  simp only [value_eq, mul_comm]

example : IsSex (K := ℚ) (fun t => if t = "07.5".toList then some (15 / 2) else none) "-12:34:07.5".toList (-12) 34 (15 / 2) :=
  ⟨"-12".toList, "34".toList, "07.5".toList, by decide, by decide, by decide, by decide, by decide, by decide, if_pos rfl⟩

/-- C105: any other text is refused, and both coordinates are NaN. -/
theorem C105_refuse {pd : Str → Option K} {sra sdec : Str} (h : (∀ h m s, ¬ IsSex pd sra h m s) ∨ ∀ h m s, ¬ IsSex pd sdec h m s) :
    sex2deg pd sra sdec = .ok (false, none, none) := by
  obtain ⟨l, hl, _⟩ := C34_split sra [':'] (by simp)
  obtain ⟨l', hl', _⟩ := C34_split sdec [':'] (by simp)
  unfold sex2deg
  rw [hl, hl', Res.ok_bind, Res.ok_bind]
  split
  · rename_i a b e1 e2
    rcases h with h | h
    · exact absurd ((comps_split pd sra l hl a).1 e1) (h _ _ _)
    · exact absurd ((comps_split pd sdec l' hl' b).1 e2) (h _ _ _)
  · rfl

/-- C105: the vector form works element by element and refuses vectors of different lengths. -/
theorem C105_vector (pd : Str → Option K) (sra sdec : List Str) : sex2degVec pd sra sdec =
    if sra.length = sdec.length then (List.zip sra sdec).mapM (fun p => sex2deg pd p.1 p.2) else .abort := by
  unfold sex2degVec
  by_cases h : sra.length = sdec.length
  · rw [Res.check_pos h, Res.ok_bind, if_pos h]
    have hex : ∀ a b : Str, ∃ r, sex2deg pd a b = .ok r := by
      intro a b
      obtain ⟨l, hl, _⟩ := C34_split a [':'] (by simp)
      obtain ⟨l', hl', _⟩ := C34_split b [':'] (by simp)
      unfold sex2deg
      rw [hl, hl', Res.ok_bind, Res.ok_bind]
      split
      · exact ⟨_, rfl⟩
      · exact ⟨_, rfl⟩
    choose f hf using hex
    rw [Res.mapM_getElem (r := (List.zip sra sdec).map fun p => f p.1 p.2) (by simp [h]),
      Res.mapM_getElem (r := (List.zip sra sdec).map fun p => f p.1 p.2) (by simp)]
    · intro i hi hr
      simp only [List.getElem_map, hf]
    · intro i hi hr
      simp only [List.length_range] at hi
      simp only [List.getElem_range, Res.rd_lt hi, Res.rd_lt (h ▸ hi), Res.ok_bind, hf, List.getElem_map, List.getElem_zip]
  · rw [Res.check_neg h, if_neg h]; rfl

/-! ### writing -/

theorem parts_spec {x : K} (h : 0 ≤ x) : 0 ≤ (parts x).1 ∧ ((parts x).1 : K) ≤ x ∧ 0 ≤ (parts x).2.1 ∧ (parts x).2.1 < 60 ∧
    0 ≤ (parts x).2.2 ∧ (parts x).2.2 < 60 ∧ ((parts x).1 : K) + (parts x).2.1 / 60 + (parts x).2.2 / 3600 = x := by
  have h1 := Int.floor_le x
  have h2 := Int.lt_floor_add_one x
  have h3 := Int.floor_le ((x - ⌊x⌋) * 60)
  have h4 := Int.lt_floor_add_one ((x - ⌊x⌋) * 60)
  simp only [parts]
  refine ⟨Int.floor_nonneg.2 h, h1, Int.floor_nonneg.2 (by linarith), Int.floor_lt.2 (by push_cast; linarith), by linarith, by linarith, ?_⟩
  field_simp
  ring

theorem abs_sgn (x : K) : x * (sgn x : Int) = |x| := by
  unfold sgn
  by_cases h : 0 ≤ x
  · simp [h, abs_of_nonneg h]
  · simp [h, abs_of_neg (not_le.1 h)]

theorem div_sgn (x : K) : x / (15 * (sgn x : Int)) = |x| / 15 := by
  unfold sgn
  by_cases h : 0 ≤ x
  · simp [h, abs_of_nonneg h]
  · simp [h, abs_of_neg (not_le.1 h)]; rw [div_neg, neg_div]

/-- C105: the text of an angle: the integer part with the sign, minutes and seconds between 0 and 60, which add up
to the absolute value of the angle; the minutes have two digits. -/
theorem C105_format (fd : K → Str) (dec : K) : ∃ (h m : Nat) (s : K),
    (deg2sex fd 0 dec).2 = colons (decInt (if 0 ≤ dec then (h : Int) else -h)) (alignRight (Io.dec m) 2 '0') (formatSec (fd s)) ∧
    m < 60 ∧ 0 ≤ s ∧ s < 60 ∧ (h : K) + m / 60 + s / 3600 = |dec| ∧ (alignRight (Io.dec m) 2 '0').length = 2 := by
  obtain ⟨h1, h2, h3, h4, h5, h6, h7⟩ := parts_spec (abs_nonneg dec)
  obtain ⟨h, hh⟩ := Int.eq_ofNat_of_zero_le h1
  obtain ⟨m, hm⟩ := Int.eq_ofNat_of_zero_le h3
  refine ⟨h, m, (parts |dec|).2.2, ?_, by omega, h5, h6, ?_, ?_⟩
  · simp only [deg2sex, sexText, abs_sgn, colons]
    rw [hh, hm]
    have : ((h : Nat) : Int) * sgn dec = if 0 ≤ dec then (h : Int) else -h := by
      unfold sgn; split <;> simp
    rw [this, show decInt ((m : Nat) : Int) = Io.dec m by simp [decInt]]
  · rw [hh, hm] at h7; simpa using h7
  · have : m < 60 := by omega
    interval_cases m <;> decide

/-- reading back one of the two texts -/
theorem sexText_read {fd : K → Str} {pd : Str → Option K} {rnd : K → K}
    (hfp : ∀ s, 0 ≤ s → s < 60 → ':' ∉ fd s ∧ pd (formatSec (fd s)) = some (rnd s)) {x : K} (hx : 0 ≤ x) (hb : x < 2 ^ 63) (sg : Int)
    (hsg : sg = 1 ∨ sg = -1) : IsSex pd (sexText fd sg x) ((parts x).1 * sg) (parts x).2.1 (rnd (parts x).2.2) := by
  obtain ⟨h1, h2, h3, h4, h5, h6, h7⟩ := parts_spec hx
  obtain ⟨m, hm⟩ := Int.eq_ofNat_of_zero_le h3
  have hlt : (parts x).1 < 2 ^ 63 := by
    have : ((parts x).1 : K) < ((2 ^ 63 : Int) : K) := by push_cast; linarith
    exact Int.cast_lt.1 this
  have hd : decInt (parts x).2.1 = dec m := by rw [hm]; simp [decInt]
  refine ⟨decInt ((parts x).1 * sg), alignRight (decInt (parts x).2.1) 2 '0', formatSec (fd (parts x).2.2), ?_, colon_decInt _, ?_,
    colon_formatSec (hfp _ h5 h6).1, ?_, ?_, (hfp _ h5 h6).2⟩
  · simp [sexText, colons]
  · rw [hd]; exact colon_align m 2
  · refine fromInt_decInt ?_ ?_ <;> rcases hsg with rfl | rfl <;> omega
  · rw [hd, fromInt_align (by omega), hm]

/-- the sign is kept when the integer part is not zero -/
theorem sexText_angle {x y : K} {r : K} (h : 0 ≤ y ∨ 1 ≤ x) (hx : 0 ≤ x) (hy : y = x ∨ y = -x) :
    |angle ((parts x).1 * sgn y) (parts x).2.1 r - y| = |r - (parts x).2.2| / 3600 := by
  obtain ⟨h1, h2, h3, h4, h5, h6, h7⟩ := parts_spec hx
  by_cases hs : 0 ≤ y
  · have hyx : y = x := by
      rcases hy with e | e
      · exact e
      · have : x = 0 := by linarith
        rw [e, this]; simp
    have : sgn y = 1 := by unfold sgn; simp [hs]
    rw [this, mul_one, angle, if_pos h1, hyx]
    rw [show ((parts x).1 : K) + (parts x).2.1 / 60 + r / 3600 - x = (r - (parts x).2.2) / 3600 by linear_combination h7,
      abs_div, abs_of_pos (by norm_num : (0 : K) < 3600)]
  · have h1x : 1 ≤ x := by tauto
    have hyx : y = -x := by
      rcases hy with e | e
      · exact absurd (e ▸ hx) hs
      · exact e
    have : sgn y = -1 := by unfold sgn; simp [hs]
    have hp : 1 ≤ (parts x).1 := by
      simp only [parts]
      exact Int.le_floor.2 (by simpa using h1x)
    rw [this, angle, if_neg (by omega), hyx]
    rw [show -(-(((parts x).1 * (-1 : Int) : Int) : K) + (parts x).2.1 / 60 + r / 3600) - -x
      = -((r - (parts x).2.2) / 3600) by push_cast; linear_combination -h7, abs_neg, abs_div, abs_of_pos (by norm_num : (0 : K) < 3600)]

/-- C105 (partial: angles between -1 and 0, where the sign is lost, are excluded): coordinates written by `deg2sex`
and read by `sex2deg` come back, up to the precision `eps` of the text of the seconds. -/
theorem C105_roundtrip_partial {fd : K → Str} {pd : Str → Option K} {rnd : K → K} {eps : K}
    (hfp : ∀ s, 0 ≤ s → s < 60 → ':' ∉ fd s ∧ pd (formatSec (fd s)) = some (rnd s) ∧ |rnd s - s| ≤ eps)
    {ra dec : K} (hr : 0 ≤ ra ∨ ra ≤ -15) (hd : 0 ≤ dec ∨ dec ≤ -1) (br : |ra| < 2 ^ 63) (bd : |dec| < 2 ^ 63) :
    ∃ ra' dec', sex2deg pd (deg2sex fd ra dec).1 (deg2sex fd ra dec).2 = .ok (true, some ra', some dec') ∧
      |ra' - ra| ≤ 15 * eps / 3600 ∧ |dec' - dec| ≤ eps / 3600 := by
  have hfp' : ∀ s, 0 ≤ s → s < 60 → ':' ∉ fd s ∧ pd (formatSec (fd s)) = some (rnd s) := fun s a b => ⟨(hfp s a b).1, (hfp s a b).2.1⟩
  have hsg : ∀ x : K, sgn x = 1 ∨ sgn x = -1 := by intro x; unfold sgn; split <;> simp
  have hra0 : 0 ≤ |ra| / 15 := div_nonneg (abs_nonneg _) (by norm_num)
  have h1 : IsSex pd (deg2sex fd ra dec).1 ((parts (|ra| / 15)).1 * sgn ra) (parts (|ra| / 15)).2.1 (rnd (parts (|ra| / 15)).2.2) := by
    rw [deg2sex, div_sgn]
    exact sexText_read hfp' hra0 (lt_of_le_of_lt (div_le_self (abs_nonneg _) (by norm_num)) br) (sgn ra) (hsg ra)
  have h2 : IsSex pd (deg2sex fd ra dec).2 ((parts |dec|).1 * sgn dec) (parts |dec|).2.1 (rnd (parts |dec|).2.2) := by
    rw [deg2sex, abs_sgn]
    exact sexText_read hfp' (abs_nonneg dec) bd (sgn dec) (hsg dec)
  refine ⟨_, _, C105_parse h1 h2, ?_, ?_⟩
  · have hs : sgn (ra / 15) = sgn ra := by
      unfold sgn
      congr 1
      rw [eq_iff_iff]
      constructor
      · intro h; by_contra hn; exact absurd h (not_le.2 (div_neg_of_neg_of_pos (not_le.1 hn) (by norm_num)))
      · intro h; exact div_nonneg h (by norm_num)
    have := sexText_angle (x := |ra| / 15) (y := ra / 15) (r := rnd (parts (|ra| / 15)).2.2) (by
        rcases hr with h | h
        · exact Or.inl (div_nonneg h (by norm_num))
        · right
          rw [le_div_iff₀ (by norm_num), abs_of_nonpos (by linarith)]; linarith) hra0 (by
        rcases abs_choice ra with e | e <;> rw [e]
        · exact Or.inl rfl
        · right; ring)
    rw [hs] at this
    obtain ⟨_, _, _, _, h5, h6, _⟩ := parts_spec hra0
    have hb := (hfp _ h5 h6).2.2
    rw [show ra = 15 * (ra / 15) by ring, ← mul_sub, abs_mul, abs_of_pos (by norm_num : (0 : K) < 15)]
    rw [show 15 * (ra / 15) = ra by ring, this, mul_div_assoc]
    have : |rnd (parts (|ra| / 15)).2.2 - (parts (|ra| / 15)).2.2| / 3600 ≤ eps / 3600 := by
      rw [div_le_div_iff_of_pos_right (by norm_num)]; exact hb
    linarith
  · rw [sexText_angle (x := |dec|) (y := dec) (by
      rcases hd with h | h
      · exact Or.inl h
      · right; rw [abs_of_nonpos (by linarith)]; linarith) (abs_nonneg _) (by
      rcases abs_choice dec with e | e <;> rw [e]
      · exact Or.inl rfl
      · right; ring)]
    obtain ⟨_, _, _, _, h5, h6, _⟩ := parts_spec (abs_nonneg dec)
    rw [div_le_div_iff_of_pos_right (by norm_num)]
    exact (hfp _ h5 h6).2.2

/-- the hypothesis on the texts can be met, here with whole seconds (`eps = 1`) -/
example : ∃ (fd : ℚ → Str) (pd : Str → Option ℚ) (rnd : ℚ → ℚ), ∀ s, 0 ≤ s → s < 60 →
    ':' ∉ fd s ∧ pd (formatSec (fd s)) = some (rnd s) ∧ |rnd s - s| ≤ 1 := by
  refine ⟨fun s => decInt ⌊s⌋, fun t => (fromInt (t.takeWhile (· ≠ '.'))).map fun z : Int => (z : ℚ), fun s => ⌊s⌋, ?_⟩
  intro s h0 h1
  refine ⟨colon_decInt _, ?_, ?_⟩
  · have a : 0 ≤ ⌊s⌋ := Int.floor_nonneg.2 h0
    have b : ⌊s⌋ < 60 := Int.floor_lt.2 (by exact_mod_cast h1)
    have : ∀ z : Int, 0 ≤ z → z < 60 → fromInt ((formatSec (decInt z)).takeWhile (· ≠ '.')) = some z := by
      intro z hz hz'
      interval_cases z <;> decide
    show Option.map _ (fromInt ((formatSec (decInt ⌊s⌋)).takeWhile (· ≠ '.'))) = _
    rw [this _ a b]; rfl
  · rw [abs_le]
    exact ⟨by linarith [Int.lt_floor_add_one s], by linarith [Int.floor_le s]⟩

/-- C105 refuted: the sign of an angle between -1 and 0 is not written; the text is that of the opposite angle. -/
theorem C105_sign_refuted (fd : K → Str) {ra dec : K} (hr : -15 < ra ∧ ra < 0) (hd : -1 < dec ∧ dec < 0) :
    deg2sex fd ra dec = deg2sex fd (-ra) (-dec) := by
  have key : ∀ x : K, 0 ≤ x → x < 1 → ∀ s t, sexText fd s x = sexText fd t x := by
    intro x h0 h1 s t
    have : (parts x).1 = 0 := Int.floor_eq_zero_iff.2 ⟨h0, h1⟩
    simp [sexText, this]
  unfold deg2sex
  rw [div_sgn, div_sgn, abs_sgn, abs_sgn, abs_neg, abs_neg,
    key (|ra| / 15) (div_nonneg (abs_nonneg _) (by norm_num)) (by rw [div_lt_one (by norm_num), abs_of_neg hr.2]; linarith) (sgn ra) (sgn (-ra)),
    key |dec| (abs_nonneg _) (by rw [abs_of_neg hd.2]; linarith) (sgn dec) (sgn (-dec))]

/-- C105 refuted: nor is it read; "-0:30:00" is read as plus half a degree. -/
theorem C105_minus_zero_refuted {pd : Str → Option K} (h : pd "00".toList = some 0) :
    sex2deg pd "1:00:00".toList "-0:30:00".toList = .ok (true, some 15, some (1 / 2)) := by
  have h1 : IsSex pd "1:00:00".toList 1 0 0 := ⟨"1".toList, "00".toList, "00".toList, by decide, by decide, by decide, by decide, by decide, by decide, h⟩
  have h2 : IsSex pd "-0:30:00".toList 0 30 0 := ⟨"-0".toList, "30".toList, "00".toList, by decide, by decide, by decide, by decide, by decide, by decide, h⟩
  rw [C105_parse h1 h2]
  simp only [angle]
  norm_num

/-- C105 refuted: seconds which `to_string` writes with an exponent get a second decimal point after it, and the
text is not a number. -/
theorem C105_exponent_refuted {fd : K → Str} (h : fd (1 / 100000) = "1e-05".toList) :
    (deg2sex fd 0 (1 / 360000000)).2 = "0:00:01e-05.0".toList := by
  have h0 : ⌊(1 / 360000000 : K)⌋ = 0 := Int.floor_eq_zero_iff.2 ⟨by norm_num, by norm_num⟩
  have h1 : ⌊((1 / 360000000 : K) - (0 : Int)) * 60⌋ = 0 := Int.floor_eq_zero_iff.2 ⟨by norm_num, by norm_num⟩
  have hp : parts (1 / 360000000 : K) = (0, 0, 1 / 100000) := by
    simp only [parts, h0, h1]
    norm_num
  have ha : (1 / 360000000 : K) * (sgn (1 / 360000000 : K) : Int) = 1 / 360000000 := by
    rw [abs_sgn]; exact abs_of_pos (by norm_num)
  simp only [deg2sex, ha, sexText, hp, h, zero_mul]
  decide

end Verif.Sex
