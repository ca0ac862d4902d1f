import Verif.Find.FindProps
import Verif.Math.OrderProps
import Mathlib.Algebra.Order.Field.Rat
import Mathlib.Data.List.GetD
/-!
# The depth of a catalogue: `photinfo` (C236)

The areas and the smallest distances of the bands, which are printed next to the columns modelled here, are left out. A flux that is not finite is
`none`. The length of a printed error is given by `len`, the random permutation by `shuf`.
-/
namespace Verif.PhotInfo
open Verif Verif.Find Verif.Math

variable {K : Type} [Field K] [LinearOrder K]

/-! ### Model -/

/-- the catalogue: the fluxes and errors of `ngal` sources in `nf` bands, row by row; `nb` is the number of names of bands -/
structure Cat (K : Type) where
  ngal : Nat
  nf : Nat
  nb : Nat
  flux : List (Option K)
  err : List (Option K)

/-- `is_finite(f) && is_finite(e) && f > 0 && e > 0` (`photinfo.cpp:154`) -/
def valid : Option K → Option K → Bool
  | some f, some e => decide (0 < f) && decide (0 < e)
  | _, _ => false

/-- `f/e > s` -/
def over (s : K) : Option K → Option K → Bool
  | some f, some e => decide (s < f / e)
  | _, _ => false

/-- `x[k]`, checked -/
def get {α : Type} (x : List α) (k : Nat) : Res α :=
  match x[k]? with
  | some a => .ok a
  | none => .abort

/-- `x(_,i)` of a vector of `ngal` rows of `nf` values -/
def col (c : Cat K) (x : List (Option K)) (i : Nat) : List (Option K) :=
  (List.range c.ngal).map fun k => (x[k * c.nf + i]?).getD none

/-- `rndid` (`photinfo.cpp:64-70`): `[_-2000]` takes the elements 0 to 2000, which must exist -/
def rndIds (shuf : List Nat → List Nat) (gidg : List Nat) : Res (List Nat) :=
  if 2000 ≤ gidg.length then
    if 2000 < (shuf gidg).length then .ok ((shuf gidg).take 2001) else .abort
  else .ok (List.range gidg.length)

/-- the columns of a line that come of the fluxes -/
structure Row (K : Type) where
  id : Nat
  depth : Option K
  ndet : Nat
  n3 : Nat
  n5 : Nat
  deriving DecidableEq

/-- the line of a band (`photinfo.cpp:150-174`), none for a band that is skipped -/
def bandRow (c : Cat K) (i : Nat) : Res (Option (Row K)) := do
  Res.check (i < c.nf)
  let f := col c c.flux i
  let e := col c c.err i
  let idg := where_ (List.zipWith valid f e)
  let idg3s := where_ (List.zipWith (fun f e => valid f e && over 3 f e) f e)
  if idg = [] ∨ idg3s = [] then .ok none
  else do
    let es ← idg3s.mapM (get e)
    let m ← median es
    let fg ← idg.mapM (get f)
    let eg ← idg.mapM (get e)
    .ok (some ⟨i, m.map (3 * ·), idg.length, (List.zipWith (over 3) fg eg).count true, (List.zipWith (over 5) fg eg).count true⟩)

/-- `photinfo` (`photinfo.cpp:58-177`): the width of the column of the depths and the lines -/
def photinfo (shuf : List Nat → List Nat) (len : Option K → Nat) (c : Cat K) : Res (Nat × List (Row K)) := do
  Res.check (c.flux.length = c.err.length)
  let gidg := where_ (List.zipWith (fun f e => valid f e && over 3 f e) c.flux c.err)
  let rnd ← rndIds shuf gidg
  let es ← rnd.mapM (get c.err)
  let w ← vmax (es.map fun e => some (len e))
  let rows ← (List.range c.nb).mapM (bandRow c)
  .ok (max "depth [uJy]".length (w.2.getD 0), rows.filterMap id)

/-! ### Specification -/

/-- source `k` has a positive flux and a positive error in band `i`, and its flux is more than `s` times the error -/
def Detected (c : Cat K) (s : K) (i k : Nat) : Prop :=
  ∃ f e, c.flux[k * c.nf + i]? = some (some f) ∧ c.err[k * c.nf + i]? = some (some e) ∧ 0 < f ∧ 0 < e ∧ s < f / e

/-- the two matrices have the announced size -/
def Sized (c : Cat K) : Prop := c.flux.length = c.ngal * c.nf ∧ c.err.length = c.ngal * c.nf ∧ c.nb = c.nf

instance (c : Cat K) : Decidable (Sized c) := by unfold Sized; infer_instance

/-! ### Lemmas -/

theorem whereFrom_filter (k : Nat) (v : List Bool) : whereFrom k v = ((List.range v.length).filter fun j => v.getD j false).map (k + ·) := by
  induction v generalizing k with
  | nil => rfl
  | cons b v ih =>
    rw [List.length_cons, List.range_succ_eq_map, List.filter_cons, List.filter_map]
    have : ((fun j => (b :: v).getD j false) ∘ Nat.succ) = fun j => v.getD j false := by funext j; simp
    rw [this]
    have h2 : List.map ((k + ·) ∘ Nat.succ) ((List.range v.length).filter fun j => v.getD j false) = whereFrom (k + 1) v := by
      rw [ih]; refine List.map_congr_left fun j _ => ?_
      simp only [Function.comp_apply]; omega
    cases b
    · simp only [whereFrom, List.getD_cons_zero, Bool.false_eq_true, if_false, List.map_map]; exact h2.symm
    · simp only [whereFrom, List.getD_cons_zero, if_true, List.map_cons, List.map_map, Nat.add_zero]; rw [h2]

theorem where_filter (v : List Bool) : where_ v = (List.range v.length).filter fun k => v.getD k false := by
  unfold where_; rw [whereFrom_filter]; simp

theorem get_mapM {α : Type} (x : List α) (ids : List Nat) (d : α) (h : ∀ k ∈ ids, k < x.length) :
    ids.mapM (get x) = .ok (ids.map fun k => x.getD k d) := by
  refine Res.mapM_ok fun k hk => ?_
  unfold get
  rw [List.getElem?_eq_getElem (h k hk), List.getD_eq_getElem _ _ (h k hk)]

theorem col_get (c : Cat K) (x : List (Option K)) (i k : Nat) (hk : k < c.ngal) : (col c x i).getD k none = (x[k * c.nf + i]?).getD none := by
  unfold col
  rw [List.getD_eq_getElem _ _ (by simpa using hk)]
  simp

theorem zip_get (g : Option K → Option K → Bool) (c : Cat K) (i k : Nat) (hk : k < c.ngal) :
    (List.zipWith g (col c c.flux i) (col c c.err i)).getD k false = g ((col c c.flux i).getD k none) ((col c c.err i).getD k none) := by
  have h1 : k < (col c c.flux i).length := by unfold col; simpa using hk
  have h2 : k < (col c c.err i).length := by unfold col; simpa using hk
  rw [List.getD_eq_getElem _ _ (by simp [h1, h2]), List.getD_eq_getElem _ _ h1, List.getD_eq_getElem _ _ h2, List.getElem_zipWith]

theorem where_col (g : Option K → Option K → Bool) (c : Cat K) (i : Nat) :
    where_ (List.zipWith g (col c c.flux i) (col c c.err i)) =
      (List.range c.ngal).filter fun k => g ((col c c.flux i).getD k none) ((col c c.err i).getD k none) := by
  rw [where_filter]
  have h : (List.zipWith g (col c c.flux i) (col c c.err i)).length = c.ngal := by simp [col]
  rw [h]
  refine List.filter_congr fun k hk => ?_
  rw [zip_get g c i k (List.mem_range.1 hk)]

theorem det_iff (c : Cat K) (s : K) (i k : Nat) (hk : k < c.ngal) :
    (valid ((col c c.flux i).getD k none) ((col c c.err i).getD k none) && over s ((col c c.flux i).getD k none) ((col c c.err i).getD k none)) = true
      ↔ Detected c s i k := by
  rw [col_get c _ i k hk, col_get c _ i k hk]
  unfold Detected
  rcases hf : c.flux[k * c.nf + i]? with _ | _ | f <;> rcases he : c.err[k * c.nf + i]? with _ | _ | e <;> simp [valid, over, and_assoc]

variable [IsStrictOrderedRing K]

theorem valid_iff (c : Cat K) (i k : Nat) (hk : k < c.ngal) :
    valid ((col c c.flux i).getD k none) ((col c c.err i).getD k none) = true ↔ Detected c 0 i k := by
  rw [← det_iff c 0 i k hk]
  rcases (col c c.flux i).getD k none with _ | f <;> rcases (col c c.err i).getD k none with _ | e <;> simp [valid, over]
  intro h1 h2
  exact div_pos h1 h2

theorem count_over (c : Cat K) (s : K) (i : Nat) (ids : List Nat)
    (hids : ids = (List.range c.ngal).filter fun k => valid ((col c c.flux i).getD k none) ((col c c.err i).getD k none)) :
    (List.zipWith (over s) (ids.map fun k => (col c c.flux i).getD k none) (ids.map fun k => (col c c.err i).getD k none)).count true =
      ((List.range c.ngal).filter fun k => valid ((col c c.flux i).getD k none) ((col c c.err i).getD k none) && over s ((col c c.flux i).getD k none) ((col c c.err i).getD k none)).length := by
  rw [List.zipWith_map, List.zipWith_self, List.count, List.countP_map, hids, List.countP_filter, List.countP_eq_length_filter]
  congr 1
  refine List.filter_congr fun k _ => ?_
  simp only [Function.comp_apply, beq_true]
  rw [Bool.and_comm]

open Classical in
/-- the sources of band `i` that are detected at `s` times the error, in order -/
noncomputable def dets (c : Cat K) (s : K) (i : Nat) : List Nat := (List.range c.ngal).filter fun k => Detected c s i k

open Classical in
theorem det_filter (c : Cat K) (s : K) (i : Nat) :
    ((List.range c.ngal).filter fun k => valid ((col c c.flux i).getD k none) ((col c c.err i).getD k none) && over s ((col c c.flux i).getD k none) ((col c c.err i).getD k none)) = dets c s i := by
  refine List.filter_congr fun k hk => ?_
  rw [Bool.eq_iff_iff, det_iff c s i k (List.mem_range.1 hk)]
  simp

open Classical in
theorem valid_filter (c : Cat K) (i : Nat) :
    ((List.range c.ngal).filter fun k => valid ((col c c.flux i).getD k none) ((col c c.err i).getD k none)) = dets c 0 i := by
  refine List.filter_congr fun k hk => ?_
  rw [Bool.eq_iff_iff, valid_iff c i k (List.mem_range.1 hk)]
  simp

/-- what the line of a band is -/
theorem bandRow_spec (c : Cat K) (i : Nat) (hi : i < c.nf) :
    (dets c 3 i = [] ∧ bandRow c i = .ok none) ∨
    (dets c 3 i ≠ [] ∧ ∃ m : K, bandRow c i = .ok (some ⟨i, some (3 * m), (dets c 0 i).length, (dets c 3 i).length, (dets c 5 i).length⟩) ∧
      IsOrderStat ((dets c 3 i).map fun k => (c.err[k * c.nf + i]?).getD none) ((dets c 3 i).length / 2) m) := by
  unfold bandRow
  rw [Res.check_pos hi, Res.ok_bind]
  dsimp only
  rw [where_col valid, where_col (fun f e => valid f e && over 3 f e), valid_filter, det_filter]
  by_cases h3 : dets c 3 i = []
  · left
    exact ⟨h3, by rw [if_pos (.inr h3)]⟩
  right
  refine ⟨h3, ?_⟩
  have hsub : ∀ k, k ∈ dets c 3 i → k ∈ dets c 0 i := by
    intro k hk
    unfold dets at hk ⊢
    simp only [List.mem_filter, decide_eq_true_eq] at hk ⊢
    obtain ⟨h, f, e, a1, a2, a3, a4, a5⟩ := hk
    exact ⟨h, f, e, a1, a2, a3, a4, div_pos a3 a4⟩
  have h0 : dets c 0 i ≠ [] := by
    obtain ⟨k, hk⟩ := List.exists_mem_of_ne_nil _ h3
    exact List.ne_nil_of_mem (hsub k hk)
  rw [if_neg (by simp [h0, h3])]
  have hlt : ∀ s, ∀ k ∈ dets c s i, k < c.ngal := by
    intro s k hk
    unfold dets at hk
    exact List.mem_range.1 (List.mem_filter.1 hk).1
  have hlen : ∀ x, (col c x i).length = c.ngal := by intro x; simp [col]
  rw [get_mapM (col c c.err i) (dets c 3 i) none (fun k hk => by rw [hlen]; exact hlt 3 k hk), Res.ok_bind]
  have hes : ((dets c 3 i).map fun k => (col c c.err i).getD k none) = (dets c 3 i).map fun k => (c.err[k * c.nf + i]?).getD none :=
    List.map_congr_left fun k hk => col_get c c.err i k (hlt 3 k hk)
  have hnum : numbers ((dets c 3 i).map fun k => (c.err[k * c.nf + i]?).getD none) = (dets c 3 i).length := by
    unfold numbers
    rw [List.countP_map, List.countP_eq_length]
    intro k hk
    unfold dets at hk
    simp only [List.mem_filter, decide_eq_true_eq] at hk
    obtain ⟨_, f, e, _, a2, _⟩ := hk
    simp [a2]
  rw [hes]
  rcases C26_median ((dets c 3 i).map fun k => (c.err[k * c.nf + i]?).getD none) (by simpa using h3) with ⟨h, _⟩ | ⟨_, m, hm, hs⟩
  · rw [hnum] at h
    exact absurd (List.length_eq_zero_iff.1 h) h3
  · refine ⟨m, ?_, by rwa [hnum] at hs⟩
    rw [hm, Res.ok_bind]
    rw [get_mapM (col c c.flux i) (dets c 0 i) none (fun k hk => by rw [hlen]; exact hlt 0 k hk), Res.ok_bind]
    rw [get_mapM (col c c.err i) (dets c 0 i) none (fun k hk => by rw [hlen]; exact hlt 0 k hk), Res.ok_bind]
    rw [count_over c 3 i _ (valid_filter c i).symm, count_over c 5 i _ (valid_filter c i).symm, det_filter, det_filter]
    rfl

/-- number of detections over all the bands -/
def ndets (c : Cat K) : Nat := (List.zipWith (fun f e => valid f e && over 3 f e) c.flux c.err).count true

omit [IsStrictOrderedRing K] in
theorem where_len (v : List Bool) : (where_ v).length = v.count true := by
  rw [where_filter, ← List.countP_eq_length_filter]
  induction v with
  | nil => rfl
  | cons b v ih =>
    rw [List.length_cons, List.range_succ_eq_map, List.countP_cons, List.countP_map, List.count_cons]
    have : ((fun k => (b :: v).getD k false) ∘ Nat.succ) = fun k => v.getD k false := by
      funext k; simp
    rw [this, ih]
    cases b <;> simp

omit [IsStrictOrderedRing K] in
theorem gidg_lt (c : Cat K) (k : Nat) (hk : k ∈ where_ (List.zipWith (fun f e => valid f e && over 3 f e) c.flux c.err)) : k < c.err.length := by
  rw [where_filter] at hk
  have := List.mem_range.1 (List.mem_filter.1 hk).1
  rw [List.length_zipWith] at this
  omega

omit [IsStrictOrderedRing K] in
theorem ndets_zero (c : Cat K) (hs : Sized c) : ndets c = 0 ↔ ∀ i < c.nf, ∀ k < c.ngal, ¬ Detected c 3 i k := by
  unfold ndets
  rw [List.count_eq_zero]
  constructor
  · rintro h i hi k hk ⟨f, e, a1, a2, a3, a4, a5⟩
    refine h (List.mem_iff_getElem?.2 ⟨k * c.nf + i, ?_⟩)
    rw [List.getElem?_zipWith, a1, a2]
    simp [valid, over, a3, a4, a5]
  · intro h hm
    obtain ⟨j, hj⟩ := List.mem_iff_getElem?.1 hm
    rw [List.getElem?_zipWith] at hj
    have hjl : j < c.ngal * c.nf := by
      rw [← hs.1]
      by_contra hc
      rw [List.getElem?_eq_none (by omega)] at hj
      simp at hj
    have hnf : 0 < c.nf := Nat.pos_of_ne_zero (by rintro h0; rw [h0] at hjl; simp at hjl)
    have he : j / c.nf * c.nf + j % c.nf = j := by rw [Nat.mul_comm]; exact Nat.div_add_mod j c.nf
    refine h (j % c.nf) (Nat.mod_lt _ hnf) (j / c.nf) ((Nat.div_lt_iff_lt_mul hnf).2 hjl) ?_
    unfold Detected
    rw [he]
    rcases hf : c.flux[j]? with _ | _ | f <;> rcases hg : c.err[j]? with _ | _ | e <;> rw [hf, hg] at hj <;> simp [valid, over] at hj
    exact ⟨f, e, rfl, rfl, hj.1.1, hj.1.2, hj.2⟩

/-! ### C236 -/

/-- a line agrees with the catalogue: the numbers of sources with a positive flux, over three and over five times the error; the depth is three times
the median error of the sources over three times their error -/
def GoodRow (c : Cat K) (r : Row K) : Prop :=
  r.ndet = (dets c 0 r.id).length ∧ r.n3 = (dets c 3 r.id).length ∧ r.n5 = (dets c 5 r.id).length ∧
  ∃ m : K, r.depth = some (3 * m) ∧ IsOrderStat ((dets c 3 r.id).map fun k => (c.err[k * c.nf + r.id]?).getD none) ((dets c 3 r.id).length / 2) m

open Classical in
/-- **C236 (in part)**: with at least one detection, and not exactly 2000, the program prints one line for each band with a detection, in order; the
counts and the depth are those of the catalogue, and the counts decrease with the threshold. -/
theorem C236_rows_partial (shuf : List Nat → List Nat) (hshuf : ∀ l, (shuf l).Perm l) (len : Option K → Nat) (c : Cat K) (hs : Sized c)
    (h1 : ndets c ≠ 0) (h2 : ndets c ≠ 2000) :
    ∃ w rows, photinfo shuf len c = .ok (w, rows) ∧ "depth [uJy]".length ≤ w ∧
      rows.map (·.id) = (List.range c.nb).filter (fun i => ∃ k < c.ngal, Detected c 3 i k) ∧
      ∀ r ∈ rows, GoodRow c r ∧ r.n5 ≤ r.n3 ∧ r.n3 ≤ r.ndet ∧ 0 < r.n3 := by
  have hrow : ∀ i : Nat, ∃ o : Option (Row K), i < c.nf → bandRow c i = .ok o ∧
      (o.isSome = decide (∃ k < c.ngal, Detected c 3 i k)) ∧ ∀ r, o = some r → r.id = i ∧ GoodRow c r ∧ 0 < r.n3 := by
    intro i
    by_cases hi : i < c.nf
    swap
    · exact ⟨none, fun h => absurd h hi⟩
    have hmem : (∃ k < c.ngal, Detected c 3 i k) ↔ dets c 3 i ≠ [] := by
      unfold dets
      rw [Ne, List.filter_eq_nil_iff]
      push Not
      simp only [List.mem_range, decide_eq_true_eq]
    rcases bandRow_spec c i hi with ⟨a, b⟩ | ⟨a, m, b, d⟩
    · refine ⟨none, fun _ => ⟨b, ?_, by simp⟩⟩
      rw [Eq.comm, Option.isSome_none, decide_eq_false_iff_not, hmem]; simp [a]
    · refine ⟨_, fun _ => ⟨b, ?_, ?_⟩⟩
      · rw [Eq.comm, Option.isSome_some, decide_eq_true_eq, hmem]; exact a
      · intro r hr
        cases hr
        exact ⟨rfl, ⟨rfl, rfl, rfl, m, rfl, d⟩, List.length_pos_of_ne_nil a⟩
  choose g hg using hrow
  have hgl := where_len (List.zipWith (fun f e => valid f e && over 3 f e) c.flux c.err)
  obtain ⟨rnd, hr1, hr2, hr3⟩ : ∃ rnd, rndIds shuf (where_ (List.zipWith (fun f e => valid f e && over 3 f e) c.flux c.err)) = .ok rnd ∧ rnd ≠ [] ∧ ∀ k ∈ rnd, k < c.err.length := by
    unfold rndIds
    rw [(hshuf _).length_eq, hgl]
    change ∃ rnd, (if 2000 ≤ ndets c then if 2000 < ndets c then _ else _ else _) = _ ∧ _
    by_cases h : 2000 ≤ ndets c
    · rw [if_pos h, if_pos (by omega)]
      refine ⟨_, rfl, ?_, fun k hk => gidg_lt c k ((hshuf _).mem_iff.1 (List.mem_of_mem_take hk))⟩
      intro hn
      have := congrArg List.length hn
      rw [List.length_take, (hshuf _).length_eq, hgl] at this
      change min 2001 (ndets c) = 0 at this
      omega
    · rw [if_neg h]
      refine ⟨_, rfl, by simpa [ndets] using h1, fun k hk => ?_⟩
      have h3 := List.mem_range.1 hk
      have h4 : (List.zipWith (fun f e => valid f e && over 3 f e) c.flux c.err).count true ≤ _ := List.count_le_length
      rw [List.length_zipWith] at h4
      omega
  unfold photinfo
  rw [Res.check_pos (hs.1.trans hs.2.1.symm), Res.ok_bind]
  dsimp only
  rw [hr1, Res.ok_bind, get_mapM c.err rnd none hr3, Res.ok_bind]
  obtain ⟨p, hp, _⟩ := C25_max ((rnd.map fun k => c.err.getD k none).map fun e => some (len e)) (by simpa using hr2)
  rw [hp, Res.ok_bind, Res.mapM_ok (g := g) (fun i hi => (hg i (by rw [← hs.2.2]; exact List.mem_range.1 hi)).1), Res.ok_bind]
  refine ⟨_, _, rfl, le_max_left _ _, ?_, ?_⟩
  · have : ∀ l : List Nat, (∀ i ∈ l, i < c.nf) →
        ((l.map g).filterMap id).map (·.id) = l.filter (fun i => ∃ k < c.ngal, Detected c 3 i k) := by
      intro l hl
      induction l with
      | nil => rfl
      | cons i l ih =>
        obtain ⟨_, a2, a3⟩ := hg i (hl i (by simp))
        rw [List.filter_cons, List.map_cons, List.filterMap_cons]
        rcases hgi : g i with _ | r
        · rw [hgi] at a2
          rw [if_neg (by simpa using a2)]
          exact ih fun j hj => hl j (by simp [hj])
        · rw [hgi] at a2
          rw [if_pos (show decide (∃ k < c.ngal, Detected c 3 i k) = true from a2.symm)]
          simp only [id_eq, List.map_cons]
          rw [(a3 r hgi).1]; exact congrArg (i :: ·) (ih fun j hj => hl j (by simp [hj]))
    exact this _ fun i hi => by rw [← hs.2.2]; exact List.mem_range.1 hi
  · intro r hr
    obtain ⟨o, ho, h⟩ := List.mem_filterMap.1 hr
    obtain ⟨i, hi, rfl⟩ := List.mem_map.1 ho
    obtain ⟨_, b, d⟩ := (hg i (by rw [← hs.2.2]; exact List.mem_range.1 hi)).2.2 r h
    refine ⟨b, ?_, ?_, d⟩
    · rw [b.2.2.1, b.2.1]
      unfold dets
      refine (List.monotone_filter_right _ ?_).length_le
      intro k
      simp only [decide_eq_true_eq]
      rintro ⟨f, e, a1, a2, a3, a4, a5⟩
      exact ⟨f, e, a1, a2, a3, a4, lt_trans (by norm_num) a5⟩
    · rw [b.1, b.2.1]
      unfold dets
      refine (List.monotone_filter_right _ ?_).length_le
      intro k
      simp only [decide_eq_true_eq]
      rintro ⟨f, e, a1, a2, a3, a4, a5⟩
      exact ⟨f, e, a1, a2, a3, a4, div_pos a3 a4⟩

/-- a catalogue of two bands, with a detection in the second only -/
def exCat : Cat ℚ := ⟨2, 2, 2, [some 2, some 8, none, some 3], [some 1, some 1, some 1, some 2]⟩

example : Sized exCat ∧ ndets exCat = 1 ∧ ∃ w r, photinfo id (fun _ => 4) exCat = .ok (w, [r]) ∧ r.id = 1 ∧ r.depth = some 3 ∧ r.ndet = 2 ∧ r.n3 = 1 ∧ r.n5 = 1 := by
  refine ⟨by decide +kernel, by decide +kernel, 11, ⟨1, some 3, 2, 1, 1⟩, by decide +kernel, rfl, rfl, rfl, rfl, rfl⟩

omit [IsStrictOrderedRing K] in
/-- **C236 is false**: a catalogue without detection stops the program, which should print the header and no line. -/
theorem C236_none_refuted (shuf : List Nat → List Nat) (len : Option K → Nat) (c : Cat K) (hs : Sized c)
    (h : ∀ i < c.nf, ∀ k < c.ngal, ¬ Detected c 3 i k) : photinfo shuf len c = .abort := by
  have h0 := (ndets_zero c hs).2 h
  have hg : where_ (List.zipWith (fun f e => valid f e && over 3 f e) c.flux c.err) = [] := by
    rw [← List.length_eq_zero_iff, where_len]; exact h0
  unfold photinfo
  rw [Res.check_pos (hs.1.trans hs.2.1.symm), Res.ok_bind]
  dsimp only
  rw [hg]
  rfl

example : Sized (⟨1, 1, 1, [some 1], [some 1]⟩ : Cat ℚ) ∧ photinfo id (fun _ => 4) (⟨1, 1, 1, [some 1], [some 1]⟩ : Cat ℚ) = .abort :=
  ⟨by decide +kernel, by decide +kernel⟩

omit [IsStrictOrderedRing K] in
/-- **C236 is false**: exactly 2000 detections stop the program, as it takes 2001 of them. -/
theorem C236_2000_refuted (shuf : List Nat → List Nat) (hshuf : ∀ l, (shuf l).Perm l) (len : Option K → Nat) (c : Cat K) (hs : Sized c)
    (h : ndets c = 2000) : photinfo shuf len c = .abort := by
  have hg : (where_ (List.zipWith (fun f e => valid f e && over 3 f e) c.flux c.err)).length = 2000 := by rw [where_len]; exact h
  unfold photinfo
  rw [Res.check_pos (hs.1.trans hs.2.1.symm), Res.ok_bind]
  dsimp only
  unfold rndIds
  rw [(hshuf _).length_eq, hg]
  rfl

example : Sized (⟨2000, 1, 1, List.replicate 2000 (some 4), List.replicate 2000 (some 1)⟩ : Cat ℚ) ∧
    ndets (⟨2000, 1, 1, List.replicate 2000 (some 4), List.replicate 2000 (some 1)⟩ : Cat ℚ) = 2000 := by
  refine ⟨⟨List.length_replicate, List.length_replicate, rfl⟩, ?_⟩
  have : (valid (some (4 : ℚ)) (some 1) && over 3 (some (4 : ℚ)) (some 1)) = true := by decide +kernel
  unfold ndets
  rw [List.zipWith_replicate, this, List.count_replicate]
  rfl

/-- **C236 is false**: the widths of the columns are not taken from the errors of the detections, but from as many of the first errors of the file. Here the only
detection has an error of 20 characters; the column is 11 wide. -/
theorem C236_width_refuted : ∃ (c : Cat ℚ) (len : Option ℚ → Nat) (rows : List (Row ℚ)), Sized c ∧ Detected c 3 0 1 ∧ ¬ Detected c 3 0 0 ∧
    len ((c.err[1]?).getD none) = 20 ∧ photinfo id len c = .ok (11, rows) :=
  ⟨⟨2, 1, 1, [none, some 8], [some 1, some 2]⟩, fun x => if x = some 2 then 20 else 1, [⟨0, some 6, 1, 1, 0⟩], by decide +kernel,
    ⟨8, 2, rfl, rfl, by norm_num, by norm_num, by norm_num⟩, by rintro ⟨f, e, h, _⟩; simp at h, by decide +kernel, by decide +kernel⟩

end Verif.PhotInfo
