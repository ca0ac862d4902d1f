import Verif.Math.Mpfit
import Mathlib.Tactic.Linarith
import Mathlib.Tactic.Positivity
import Mathlib.Tactic.FieldSimp
import Mathlib.Tactic.Ring
/-!
# Lemmas on the model of `mpfit`
-/
namespace Verif.Mpfit
open Verif

variable {K : Type} [Field K] [LinearOrder K]

/-! ### Assignment of the fitted parameters -/

theorem scatter_length {T : Type} (v : List T) (ids : List Nat) (x : List T) : (scatter v ids x).length = v.length := by
  unfold scatter
  generalize ids.zip x = l
  induction l generalizing v with
  | nil => rfl
  | cons a l ih => rw [List.foldl_cons, ih, List.length_set]

theorem scatter_not {T : Type} (v : List T) (ids : List Nat) (x : List T) {i : Nat} (h : i ∉ ids) : (scatter v ids x)[i]? = v[i]? := by
  unfold scatter
  have : ∀ p ∈ ids.zip x, p.1 ≠ i := fun p hp he => h (he ▸ (List.of_mem_zip hp).1)
  generalize ids.zip x = l at this
  induction l generalizing v with
  | nil => rfl
  | cons a l ih =>
    rw [List.foldl_cons, ih _ fun p hp => this p (by simp [hp]), List.getElem?_set_ne (this a (by simp))]

theorem scatter_get {T : Type} (v : List T) {ids : List Nat} (x : List T) (hn : ids.Nodup) {p i : Nat} {a : T} (hi : ids[p]? = some i)
    (ha : x[p]? = some a) (hv : i < v.length) : (scatter v ids x)[i]? = some a := by
  unfold scatter
  induction ids generalizing v x p with
  | nil => simp at hi
  | cons j ids ih =>
    obtain ⟨hj, hn⟩ := List.nodup_cons.1 hn
    cases x with
    | nil => simp at ha
    | cons b x =>
      rw [List.zip_cons_cons, List.foldl_cons]
      cases p with
      | zero =>
        simp only [List.getElem?_cons_zero, Option.some.injEq] at hi ha
        subst hi ha
        have := scatter_not (v.set j b) ids x hj
        unfold scatter at this
        rw [this, List.getElem?_set_self hv]
      | succ p =>
        exact ih (v.set j b) x hn (by simpa using hi) (by simpa using ha) (by simpa using hv)

/-- the assignment does not depend on the values it replaces -/
theorem scatter_congr {T : Type} {v v' : List T} {ids : List Nat} {x : List T} (hn : ids.Nodup) (hl : v.length = v'.length)
    (hx : x.length = ids.length) (h : ∀ i, i ∉ ids → v[i]? = v'[i]?) : scatter v ids x = scatter v' ids x := by
  apply List.ext_getElem?
  intro i
  by_cases hi : i ∈ ids
  · by_cases hv : i < v.length
    · obtain ⟨p, hp, he⟩ := List.getElem_of_mem hi
      have e1 : ids[p]? = some i := by rw [List.getElem?_eq_getElem hp, he]
      have e2 : x[p]? = some x[p] := List.getElem?_eq_getElem (by omega)
      rw [scatter_get v x hn e1 e2 hv, scatter_get v' x hn e1 e2 (by omega)]
    · rw [List.getElem?_eq_none (by rw [scatter_length]; omega), List.getElem?_eq_none (by rw [scatter_length]; omega)]
  · rw [scatter_not _ _ _ hi, scatter_not _ _ _ hi, h i hi]

theorem scatter_scatter {T : Type} {v : List T} {ids : List Nat} {x y : List T} (hn : ids.Nodup) (hx : x.length = ids.length) :
    scatter (scatter v ids y) ids x = scatter v ids x :=
  scatter_congr hn (scatter_length v ids y) hx fun _ hi => scatter_not v ids y hi

theorem scatter_self (v : List K) (ids : List Nat) (hn : ids.Nodup) : scatter v ids (ids.map fun i => v.getD i 0) = v := by
  apply List.ext_getElem?
  intro i
  by_cases hi : i ∈ ids
  · by_cases hv : i < v.length
    · obtain ⟨p, hp, he⟩ := List.getElem_of_mem hi
      have e1 : ids[p]? = some i := by rw [List.getElem?_eq_getElem hp, he]
      rw [scatter_get v _ hn e1 (a := v[i]) (by rw [List.getElem?_map, e1]; simp [hv]) hv, List.getElem?_eq_getElem hv]
    · rw [List.getElem?_eq_none (by rw [scatter_length]; omega), List.getElem?_eq_none (by omega)]
  · exact scatter_not _ _ _ hi

theorem ifree_nodup (o : Opts K) : (ifree o).Nodup := List.Nodup.filter _ List.nodup_range

theorem mem_ifree {o : Opts K} {i : Nat} : i ∈ ifree o ↔ i < o.nparam ∧ isFree o i = true := by
  unfold ifree
  rw [List.mem_filter, List.mem_range]

/-! ### The step -/

section
variable [IsStrictOrderedRing K]

theorem clipStep_low {o : Opts K} {ip : Nat} {w : K} (h : (o.lower.getD ip none).isSome) (hu : o.upper.getD ip none = none) : 0 ≤ clipStep o ip w := by
  unfold clipStep
  rw [if_pos h, hu]
  simp

theorem clipStep_up {o : Opts K} {ip : Nat} {w : K} (h : (o.upper.getD ip none).isSome) : clipStep o ip w ≤ 0 := by
  unfold clipStep
  rw [if_pos h]
  exact min_le_right _ _

theorem clipStep_both {o : Opts K} {ip : Nat} {w : K} (h : (o.lower.getD ip none).isSome) (hu : (o.upper.getD ip none).isSome) : clipStep o ip w = 0 := by
  unfold clipStep
  rw [if_pos h, if_pos hu]
  exact min_eq_right (le_max_right _ _)

/-- the limits never shorten a step: no step goes towards a limit -/
theorem limFrac_ge {A : Alg K} (hA : 0 ≤ A.eps) {o : Opts K} {ip : Nat} {x w : K} : ∀ f ∈ limFrac A ip o x (clipStep o ip w), 1 ≤ f := by
  intro f hf
  unfold limFrac at hf
  dsimp only at hf
  rw [List.mem_append] at hf
  rcases hf with hf | hf
  · cases hl : o.lower.getD ip none with
    | none => rw [hl] at hf; simp at hf
    | some l =>
      rw [hl] at hf
      dsimp only at hf
      split at hf
      · rename_i hc
        rw [List.mem_singleton] at hf
        subst hf
        have hw : 0 ≤ clipStep o ip w := by
          cases hu : o.upper.getD ip none with
          | none => exact clipStep_low (by rw [hl]; rfl) hu
          | some u => rw [clipStep_both (by rw [hl]; rfl) (by rw [hu]; rfl)]
        have hw' : 0 < clipStep o ip w := by
          rcases hw.lt_or_eq with h | h
          · exact h
          · rw [← h, abs_zero] at hc
            linarith [hc.1]
        rw [le_div_iff₀ hw']
        linarith [hc.2]
      · simp at hf
  · cases hu : o.upper.getD ip none with
    | none => rw [hu] at hf; simp at hf
    | some u =>
      rw [hu] at hf
      dsimp only at hf
      split at hf
      · rename_i hc
        rw [List.mem_singleton] at hf
        subst hf
        have hw : clipStep o ip w ≤ 0 := clipStep_up (by rw [hu]; rfl)
        have hw' : clipStep o ip w < 0 := by
          rcases hw.lt_or_eq with h | h
          · exact h
          · rw [h, abs_zero] at hc
            linarith [hc.1]
        rw [le_div_iff_of_neg hw']
        linarith [hc.2]
      · simp at hf

theorem foldl_min_one {l : List K} (h : ∀ f ∈ l, 1 ≤ f) : l.foldl min 1 = 1 := by
  induction l with
  | nil => rfl
  | cons a l ih =>
    rw [List.foldl_cons, min_eq_left (h a (by simp))]
    exact ih fun f hf => h f (by simp [hf])

theorem mimaAlpha_pos (o : Opts K) (w : List K) {a : K} (ha : 0 < a) : 0 < mimaAlpha o w a := by
  unfold mimaAlpha
  dsimp only
  split
  · rename_i h
    exact div_pos ha (lt_trans zero_lt_one h)
  · exact ha

theorem limAlpha_one {A : Alg K} (hA : 0 ≤ A.eps) (o : Opts K) (x w : List K) : limAlpha A o x (List.zipWith (clipStep o) (ifree o) w) = 1 := by
  unfold limAlpha
  apply foldl_min_one
  intro f hf
  rw [List.mem_flatMap] at hf
  obtain ⟨⟨⟨ip, xp⟩, c⟩, hm, hf⟩ := hf
  obtain ⟨k, hk⟩ := List.mem_iff_getElem?.1 hm
  rw [List.getElem?_zip_eq_some] at hk
  obtain ⟨hk1, hk2⟩ := hk
  rw [List.getElem?_zip_eq_some] at hk1
  rw [List.getElem?_zipWith] at hk2
  rw [hk1.1] at hk2
  dsimp only at hf hk2
  cases hw : w[k]? with
  | none => rw [hw] at hk2; cases hk2
  | some b =>
    rw [hw] at hk2
    injection hk2 with hk2
    subst hk2
    exact limFrac_ge hA f hf

theorem unlimited {A : Alg K} {o : Opts K} (h : anyLim o = false) : ∀ ip ∈ ifree o, (∀ y, peg A o ip y = y) ∧ ∀ w, clipStep o ip w = w := by
  intro ip hip
  unfold anyLim at h
  rw [List.any_eq_false] at h
  have := h ip hip
  simp only [Bool.or_eq_true, not_or, Bool.not_eq_true, Option.isSome_eq_false_iff, Option.isNone_iff_eq_none] at this
  constructor
  · intro y
    unfold peg
    rw [this.1, this.2]
    rfl
  · intro w
    unfold clipStep
    rw [this.1, this.2]
    rfl

/-- the new value of each parameter; the fraction of the step that is left is positive -/
theorem move_spec {A : Alg K} (hA : 0 ≤ A.eps) (o : Opts K) (x : List K) (step : Nat → K) (hx : x.length = (ifree o).length) :
    ∃ a : K, 0 < a ∧ (move A o x step).2.2.length = x.length ∧ (move A o x step).1.length = x.length ∧
      ∀ p ip xp, (ifree o)[p]? = some ip → x[p]? = some xp →
        (move A o x step).2.2[p]? = some (peg A o ip (xp + clipStep o ip (-(step p)) * a)) := by
  unfold move
  generalize hw : (List.range x.length).map (fun p => -(step p)) = w
  have hwl : w.length = x.length := by rw [← hw]; simp
  have hwp : ∀ p, p < x.length → w[p]? = some (-(step p)) := fun p hp => by rw [← hw, List.getElem?_map, List.getElem?_range hp]; rfl
  dsimp only
  by_cases h : anyLim o = false ∧ anyMima o = false
  · rw [if_pos h]
    refine ⟨1, zero_lt_one, by simp [hwl], by simp [hwl], ?_⟩
    intro p ip xp hp hxp
    have hpl : p < x.length := (List.getElem?_eq_some_iff.1 hxp).1
    obtain ⟨h1, h2⟩ := unlimited h.1 ip (List.mem_of_getElem? hp)
    rw [h1, h2, List.getElem?_zipWith, hxp, hwp p hpl]
    simp
  · rw [if_neg h]
    clear h
    by_cases hl : anyLim o = true
    · rw [if_pos hl, if_pos hl, if_pos hl, limAlpha_one hA]
      generalize ha : (if anyMima o = true then mimaAlpha o (List.zipWith (clipStep o) (ifree o) w) 1 else 1) = a
      refine ⟨a, ?_, by simp [hwl, hx], by simp [hwl, hx], ?_⟩
      · rw [← ha]
        split
        · exact mimaAlpha_pos _ _ zero_lt_one
        · exact zero_lt_one
      · intro p ip xp hp hxp
        have hpl : p < x.length := (List.getElem?_eq_some_iff.1 hxp).1
        rw [List.getElem?_zipWith, hp, List.getElem?_zipWith, hxp, List.getElem?_map, List.getElem?_zipWith, hp, hwp p hpl]
        rfl
    · rw [if_neg hl, if_neg hl, if_neg hl]
      generalize ha : (if anyMima o = true then mimaAlpha o w 1 else 1) = a
      refine ⟨a, ?_, by simp [hwl], by simp [hwl], ?_⟩
      · rw [← ha]
        split
        · exact mimaAlpha_pos _ _ zero_lt_one
        · exact zero_lt_one
      · intro p ip xp hp hxp
        have hpl : p < x.length := (List.getElem?_eq_some_iff.1 hxp).1
        obtain ⟨h1, h2⟩ := unlimited (A := A) (Bool.eq_false_iff.2 hl) ip (List.mem_of_getElem? hp)
        rw [h1, h2, List.getElem?_zipWith, hxp, List.getElem?_map, hwp p hpl]
        rfl

end

end Verif.Mpfit
