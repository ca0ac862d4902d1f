import Verif.Astro.RegionProps
import Mathlib.LinearAlgebra.Matrix.NonsingularInverse
import Mathlib.LinearAlgebra.Matrix.ToLinearEquiv
import Mathlib.Algebra.Order.Ring.Rat
import Mathlib.Algebra.Order.Field.Basic
import Mathlib.Algebra.Order.BigOperators.Ring.Finset
import Mathlib.Algebra.BigOperators.Field
import Mathlib.Algebra.BigOperators.Group.Finset.Sigma
import Mathlib.Tactic.Linarith
import Mathlib.Tactic.Ring
import Mathlib.Tactic.LinearCombination
import Mathlib.Tactic.FieldSimp
import Mathlib.Tactic.NormNum
/-!
# The fit of `pixfit-extract` (C200)

The numbers are those of a field, without rounding (`local_error`, `terr`, `flux` and `flux_err` are in single precision in the code); a value that is not finite is `none` and there
are no infinite errors. The PSF moved by a fraction of a pixel (`translate`) is an arbitrary image for each source, the astrometry and the convex hull of `trim_image` are inputs. The
inversion of a symmetric matrix is exact (C54, C90). Only the sources on the map (`idin`) are part of the fit.
-/
namespace Verif.ExtractFit
open Verif Verif.Astro Finset

variable {K : Type}

/-! ### Model -/

/-- `max` of a vector: aborts if it is empty -/
def maxOf [LinearOrder K] : List K → Res K
  | [] => .abort
  | a :: l => .ok (l.foldl max a)

/-- the signal to noise ratio and the errors of the pixels (`pixfit-extract.cpp:500-509`): the pixels that are not valid are zero with an error that is 1e5 times the largest one -/
def prepare [Field K] [LinearOrder K] (img err : List (Option K)) : Res (List K × List K × K) := do
  let m ← maxOf (err.filterMap id)
  let nocov := 100000 * m
  let l := List.zipWith (fun a b => match a, b with
    | some a, some b => if b = 0 then ((0 : K), nocov) else (a / b, b)
    | _, _ => (0, nocov)) img err
  .ok (l.map Prod.fst, l.map Prod.snd, nocov)

/-- `trim_image` (`pixfit-extract.cpp:549-574`): `inside` is the result of `in_convex_hull`, `none` for two sources or less -/
def trim [Field K] (nocov : K) (inside : Option (List Bool)) (d : List K × List K) : List K × List K :=
  match inside with
  | none => d
  | some b =>
    if b.count true < 5 then d
    else (List.zipWith (fun i s => if i then s else 0) b d.1, List.zipWith (fun i e => if i then e else nocov) b d.2)

/-- the map: its dimensions, the signal to noise ratios and the errors -/
structure Data (K : Type) where
  nx : Nat
  ny : Nat
  snr : List K
  err : List K
  /-- `hsize` -/
  h : Nat

/-- a source: its pixel (`iy`, `ix`) and `translate(psf, dy, dx)`, of `2*hsize+1` pixels on each side -/
structure Src (K : Type) where
  iy : Int
  ix : Int
  psf : List K

/-- the flat indices of a vector, in the order of the list -/
def gather (l : List K) (ids : List Nat) : Res (List K) := ids.mapM (Res.rd l)

/-- `tpsf2[idp] /= err[idi]`, for pairs of indices (`idi`, `idp`) -/
def divIds [Field K] (err : List K) : List (Nat × Nat) → List K → Res (List K)
  | [], t => .ok t
  | (i, p) :: l, t => do
    let e ← Res.rd err i
    let a ← Res.rd t p
    divIds err l (t.set p (a / e))

/-- the weighted PSF `tpsf2` of a source with `idi` and `idp` (`pixfit-extract.cpp:594-602,635-645`) -/
def weighted [Field K] (d : Data K) (s : Src K) : Res (List Nat × List Nat × List K) := do
  let (idi, idp) ← subregion d.nx d.ny [s.iy - d.h, s.ix - d.h, s.iy + d.h, s.ix + d.h]
  let t ← divIds d.err (idi.zip idp) s.psf
  .ok (idi, idp, t.mapIdx fun k a => if k ∈ idp then a else 0)

/-- the terms of a source alone: `total(sqr(tpsf))`, `total(snr[idi]*tpsf)` and `total(tpsf/terr)` (`pixfit-extract.cpp:599-623`) -/
def terms [Field K] (d : Data K) (s : Src K) : Res (K × K × K) := do
  let (idi, idp, t) ← weighted d s
  let terr ← gather d.err idi
  let tpsf ← gather t idp
  let snr ← gather d.snr idi
  .ok ((tpsf.map fun a => a ^ 2).sum, (List.zipWith (· * ·) snr tpsf).sum, (List.zipWith (· / ·) tpsf terr).sum)

/-- the term of two sources `i < j` (`pixfit-extract.cpp:626-650`); the matrix is zero before -/
def cross [Field K] (d : Data K) (si sj : Src K) : Res K := do
  let (_, _, ti) ← weighted d si
  let idx := si.ix - sj.ix
  let idy := si.iy - sj.iy
  if |idx| ≤ 2 * (d.h : Int) ∧ |idy| ≤ 2 * (d.h : Int) then
    let (pidj, pidi) ← subregion (2 * d.h + 1) (2 * d.h + 1) [idy, idx, idy + 2 * d.h, idx + 2 * d.h]
    if pidi = [] then .ok 0
    else
      let (_, _, tj) ← weighted d sj
      let a ← gather tj pidj
      let b ← gather ti pidi
      .ok (List.zipWith (· * ·) a b).sum
  else .ok 0

/-- a loop on the sources -/
def seqFin {α : Type} : {n : Nat} → (Fin n → Res α) → Res (Fin n → α)
  | 0, _ => .ok Fin.elim0
  | _ + 1, f => do
    let a ← f 0
    let r ← seqFin fun i => f i.succ
    .ok (Fin.cons a r)

/-- the components of the fit: the sources, and the background if it is free -/
abbrev Comp (n : Nat) (free : Bool) := Fin n ⊕ {_u : Unit // free = true}

/-- `alpha` and `beta` (`pixfit-extract.cpp:580-661`); `prior` are `fprior` and `fprior_err` -/
def system [Field K] {n : Nat} (d : Data K) (srcs : Fin n → Src K) (prior : Option (Fin n → K × K)) (free : Bool) :
    Res (Matrix (Comp n free) (Comp n free) K × (Comp n free → K)) := do
  let t ← seqFin fun i => terms d (srcs i)
  let c ← seqFin fun i => seqFin fun j => if i < j then cross d (srcs i) (srcs j) else .ok 0
  let pa : Fin n → K := fun i => match prior with
    | some p => 1 / (p i).2 ^ 2
    | none => 0
  let pb : Fin n → K := fun i => match prior with
    | some p => (p i).1 / (p i).2 ^ 2
    | none => 0
  let alpha : Matrix (Comp n free) (Comp n free) K := Matrix.of fun a b => match a, b with
    | .inl i, .inl j => if i = j then (t i).1 + pa i else if i < j then c i j else c j i
    | .inl i, .inr _ => (t i).2.2
    | .inr _, .inl j => (t j).2.2
    | .inr _, .inr _ => (d.err.map fun e => 1 / e ^ 2).sum
  let beta : Comp n free → K := fun a => match a with
    | .inl i => (t i).2.1 + pb i
    | .inr _ => (List.zipWith (· / ·) d.snr d.err).sum
  .ok (alpha, beta)

/-- the fit (`pixfit-extract.cpp:752-815`): `none` if the matrix is singular, else the values of the components and their covariance -/
noncomputable def fit [Field K] [DecidableEq K] {n : Nat} (d : Data K) (srcs : Fin n → Src K) (prior : Option (Fin n → K × K)) (free : Bool) :
    Res (Option ((Comp n free → K) × Matrix (Comp n free) (Comp n free) K)) := do
  let (alpha, beta) ← system d srcs prior free
  .ok (if alpha.det ≠ 0 then some (alpha⁻¹.mulVec beta, alpha⁻¹) else none)

/-! ### Specification -/

/-- the PSF of a source at a pixel of the map -/
def Src.at [Field K] (s : Src K) (h r c : Nat) : K :=
  if |(r : Int) - s.iy| ≤ h ∧ |(c : Int) - s.ix| ≤ h then s.psf.getD (((r - s.iy + h) * (2 * h + 1) + (c - s.ix + h) : Int).toNat) 0 else 0

/-- the error of a pixel -/
def Data.e [Field K] (d : Data K) (r c : Nat) : K := d.err.getD (r * d.ny + c) 0

/-- the value of a pixel -/
def Data.y [Field K] (d : Data K) (r c : Nat) : K := d.snr.getD (r * d.ny + c) 0 * d.e r c

/-- the pixels of the map -/
def Data.pixels (d : Data K) : Finset (Nat × Nat) := range d.nx ×ˢ range d.ny

/-- the image of a component: the PSF of a source, or one for the background -/
def shape [Field K] {n : Nat} {free : Bool} (d : Data K) (srcs : Fin n → Src K) (a : Comp n free) (p : Nat × Nat) : K :=
  match a with
  | .inl i => (srcs i).at d.h p.1 p.2
  | .inr _ => 1

/-- the chi2 of a model: the sum of the components, compared to all the pixels, and the fluxes, compared to their priors -/
def chi2 [Field K] {n : Nat} {free : Bool} (d : Data K) (srcs : Fin n → Src K) (prior : Option (Fin n → K × K)) (v : Comp n free → K) : K :=
  ∑ p ∈ d.pixels, ((d.y p.1 p.2 - ∑ a, v a * shape d srcs a p) / d.e p.1 p.2) ^ 2 +
    match prior with
    | some q => ∑ i, ((v (.inl i) - (q i).1) / (q i).2) ^ 2
    | none => 0

/-- the sizes are those of images, and the numbers are far from the limits of the integers -/
structure Ok (d : Data K) (s : Src K) : Prop where
  snr : d.snr.length = d.nx * d.ny
  err : d.err.length = d.nx * d.ny
  psf : s.psf.length = (2 * d.h + 1) * (2 * d.h + 1)
  h : d.h < 2 ^ 20
  img : d.nx * d.ny < 2 ^ 63
  iy : |s.iy| < 2 ^ 50
  ix : |s.ix| < 2 ^ 50

/-! ### Helpers -/

theorem seqFin_ok {α : Type} {n : Nat} {f : Fin n → Res α} {g : Fin n → α} (h : ∀ i, f i = .ok (g i)) : seqFin f = .ok g := by
  induction n with
  | zero => simp only [seqFin]; congr 1; funext i; exact i.elim0
  | succ n ih =>
    simp only [seqFin, h 0, Res.ok_bind, ih fun i => h i.succ]
    congr 1
    funext i
    refine Fin.cases ?_ (fun i => ?_) i <;> simp

theorem seqFin_inv {α : Type} {n : Nat} {f : Fin n → Res α} {g : Fin n → α} (h : seqFin f = .ok g) : ∀ i, f i = .ok (g i) := by
  induction n with
  | zero => exact fun i => i.elim0
  | succ n ih =>
    simp only [seqFin] at h
    obtain ⟨a, h1, h⟩ := Res.bind_eq_ok.1 h
    obtain ⟨r, h2, h⟩ := Res.bind_eq_ok.1 h
    cases h
    intro i
    refine Fin.cases ?_ (fun i => ?_) i
    · exact h1
    · exact ih h2 i

theorem gather_ok (l : List K) (d : K) (ids : List Nat) (h : ∀ i ∈ ids, i < l.length) : gather l ids = .ok (ids.map fun i => l.getD i d) := by
  unfold gather
  apply Res.mapM_ok
  intro i hi
  rw [Res.rd_lt (h i hi), List.getD_eq_getElem?_getD, List.getElem?_eq_getElem (h i hi)]
  rfl

theorem divIds_ok [Field K] (err : List K) (ps : List (Nat × Nat)) (t : List K) (h1 : ∀ p ∈ ps, p.1 < err.length ∧ p.2 < t.length)
    (hn : ps.Pairwise fun p q => p.2 ≠ q.2) :
    ∃ r, divIds err ps t = .ok r ∧ r.length = t.length ∧ (∀ p ∈ ps, r.getD p.2 0 = t.getD p.2 0 / err.getD p.1 0) := by
  suffices ∃ r, divIds err ps t = .ok r ∧ r.length = t.length ∧ (∀ p ∈ ps, r.getD p.2 0 = t.getD p.2 0 / err.getD p.1 0) ∧ ∀ k, (∀ p ∈ ps, p.2 ≠ k) → r.getD k 0 = t.getD k 0 by
    obtain ⟨r, a, b, c, -⟩ := this
    exact ⟨r, a, b, c⟩
  induction ps generalizing t with
  | nil => exact ⟨t, rfl, rfl, by simp, fun _ _ => rfl⟩
  | cons p ps ih =>
    obtain ⟨i, k⟩ := p
    have hp := h1 (i, k) (by simp)
    rw [List.pairwise_cons] at hn
    obtain ⟨r, g1, g2, g3, g4⟩ := ih (t.set k (t[k]'hp.2 / err[i]'hp.1)) (fun q hq => by simpa using h1 q (by simp [hq])) hn.2
    have hset : ∀ m, m ≠ k → (t.set k (t[k]'hp.2 / err[i]'hp.1)).getD m 0 = t.getD m 0 := by
      intro m hm
      rw [List.getD_eq_getElem?_getD, List.getD_eq_getElem?_getD, List.getElem?_set_ne (Ne.symm hm)]
    refine ⟨r, ?_, by simpa using g2, ?_, ?_⟩
    · simp only [divIds]
      rw [Res.rd_lt hp.1, Res.ok_bind, Res.rd_lt hp.2, Res.ok_bind, g1]
    · intro q hq
      rcases List.mem_cons.1 hq with rfl | hq
      · rw [g4 k fun q hq => (hn.1 q hq).symm]
        simp [List.getD_eq_getElem?_getD, List.getElem?_set_self hp.2, hp.1, hp.2]
      · rw [g3 q hq, hset _ (hn.1 q hq).symm]
    · intro m hm
      rw [g4 m fun q hq => hm q (by simp [hq]), hset m (Ne.symm (hm (i, k) (by simp)))]

/-- the pixels of a region are a bijection of the pixels of the image that it contains -/
theorem sum_region [Field K] (nx ny : Nat) (r0 r1 r2 r3 : Int) (l : List (Nat × Nat)) (hn : l.Nodup) (hm : ∀ p, p ∈ l ↔ Overlap nx ny r0 r1 r2 r3 p) (F : Nat → Nat → K) :
    (l.map fun p => F p.1 p.2).sum = ∑ p ∈ range nx ×ˢ range ny,
      if r0 ≤ (p.1 : Int) ∧ (p.1 : Int) ≤ r2 ∧ r1 ≤ (p.2 : Int) ∧ (p.2 : Int) ≤ r3 then F (p.1 * ny + p.2) (((p.1 - r0) * (r3 - r1 + 1) + (p.2 - r1) : Int).toNat) else 0 := by
  rw [← List.sum_toFinset _ hn, ← Finset.sum_filter]
  symm
  apply Finset.sum_bij (fun p _ => (p.1 * ny + p.2, (((p.1 - r0) * (r3 - r1 + 1) + (p.2 - r1) : Int).toNat)))
  · intro p hp
    rw [Finset.mem_filter, Finset.mem_product, Finset.mem_range, Finset.mem_range] at hp
    rw [List.mem_toFinset, hm]
    refine ⟨p.1, p.2, hp.1.1, hp.1.2, hp.2.1, hp.2.2.1, hp.2.2.2.1, hp.2.2.2.2, rfl, ?_⟩
    rw [Int.toNat_of_nonneg]
    have := Int.mul_nonneg (show (0 : Int) ≤ p.1 - r0 by omega) (show (0 : Int) ≤ r3 - r1 + 1 by omega)
    omega
  · intro p hp q hq e
    rw [Finset.mem_filter, Finset.mem_product, Finset.mem_range, Finset.mem_range] at hp hq
    obtain ⟨h1, h2⟩ := flat_inj hp.1.2 hq.1.2 (Prod.ext_iff.1 e).1
    exact Prod.ext h1 h2
  · intro b hb
    rw [List.mem_toFinset, hm] at hb
    obtain ⟨x, y, h1, h2, h3, h4, h5, h6, h7, h8⟩ := hb
    refine ⟨(x, y), ?_, ?_⟩
    · rw [Finset.mem_filter, Finset.mem_product, Finset.mem_range, Finset.mem_range]
      exact ⟨⟨h1, h2⟩, h3, h4, h5, h6⟩
    · refine Prod.ext h7.symm ?_
      dsimp only
      rw [← h8, Int.toNat_natCast]
  · intro p hp
    rfl

theorem Ok.fits {d : Data K} {s : Src K} (h : Ok d s) : Fits d.nx d.ny (s.iy - d.h) (s.ix - d.h) (s.iy + d.h) (s.ix + d.h) := by
  obtain ⟨-, -, -, hh, him, hy, hx⟩ := h
  rw [abs_lt] at hy hx
  refine ⟨by omega, by omega, by omega, by omega, him, ?_⟩
  have e1 : s.iy + d.h - (s.iy - d.h) + 1 = ((2 * d.h + 1 : Nat) : Int) := by push_cast; ring
  have e2 : s.ix + d.h - (s.ix - d.h) + 1 = ((2 * d.h + 1 : Nat) : Int) := by push_cast; ring
  rw [e1, e2]
  have : (2 * d.h + 1) * (2 * d.h + 1) ≤ 2 ^ 22 * 2 ^ 22 := Nat.mul_le_mul (by omega) (by omega)
  have h2 : (2 * d.h + 1) * (2 * d.h + 1) < 2 ^ 63 := by omega
  exact_mod_cast h2

/-- the pixel of the map at a place of the stamp -/
def Data.has (d : Data K) (s : Src K) (a b : Nat) : Prop :=
  0 ≤ s.iy - d.h + a ∧ s.iy - d.h + a < d.nx ∧ 0 ≤ s.ix - d.h + b ∧ s.ix - d.h + b < d.ny

open Classical in
theorem weighted_ok [Field K] (d : Data K) (s : Src K) (h : Ok d s) :
    ∃ idi idp t, weighted d s = .ok (idi, idp, t) ∧ idi.length = idp.length ∧ (idi.zip idp).Nodup ∧
      (∀ p, p ∈ idi.zip idp ↔ Overlap d.nx d.ny (s.iy - d.h) (s.ix - d.h) (s.iy + d.h) (s.ix + d.h) p) ∧ t.length = s.psf.length ∧
      ∀ a b, a < 2 * d.h + 1 → b < 2 * d.h + 1 → t.getD (a * (2 * d.h + 1) + b) 0 =
        if d.has s a b then s.psf.getD (a * (2 * d.h + 1) + b) 0 / d.e (s.iy - d.h + a).toNat (s.ix - d.h + b).toNat else 0 := by
  obtain ⟨rv, rr, g1, g2, g3, g4, g5⟩ := subregion_spec d.nx d.ny _ _ _ _ h.fits
  have e1 : s.ix + d.h - (s.ix - d.h) + 1 = ((2 * d.h + 1 : Nat) : Int) := by push_cast; ring
  have key : ∀ p ∈ rv.zip rr, ∃ a b, a < 2 * d.h + 1 ∧ b < 2 * d.h + 1 ∧ d.has s a b ∧ p.1 = (s.iy - d.h + a).toNat * d.ny + (s.ix - d.h + b).toNat ∧
      p.2 = a * (2 * d.h + 1) + b := by
    intro p hp
    obtain ⟨x, y, h1, h2, h3, h4, h5, h6, h7, h8⟩ := (g4 p).1 hp
    refine ⟨((x : Int) - (s.iy - d.h)).toNat, ((y : Int) - (s.ix - d.h)).toNat, by omega, by omega, ⟨by omega, by omega, by omega, by omega⟩, ?_, ?_⟩
    · rw [h7]
      congr 2 <;> omega
    · rw [e1] at h8
      have : (p.2 : Int) = ((((x : Int) - (s.iy - d.h)).toNat * (2 * d.h + 1) + ((y : Int) - (s.ix - d.h)).toNat : Nat) : Int) := by
        rw [h8]
        push_cast
        rw [Int.toNat_of_nonneg (by omega), Int.toNat_of_nonneg (by omega)]
      exact_mod_cast this
  obtain ⟨r, k1, k2, k3⟩ := divIds_ok d.err (rv.zip rr) s.psf (by
    intro p hp
    obtain ⟨a, b, ha, hb, ⟨q1, q2, q3, q4⟩, e1, e2⟩ := key p hp
    rw [h.err, h.psf, e1, e2]
    exact ⟨flat_lt (by omega) (by omega), flat_lt ha hb⟩) (by
    refine g3.imp_of_mem ?_
    intro p q hp hq hne he
    apply hne
    obtain ⟨a, b, ha, hb, -, e1, e2⟩ := key p hp
    obtain ⟨a', b', ha', hb', -, e1', e2'⟩ := key q hq
    obtain ⟨rfl, rfl⟩ := flat_inj hb hb' (e2.symm.trans (he.trans e2'))
    exact Prod.ext (e1.trans e1'.symm) he)
  refine ⟨rv, rr, r.mapIdx fun k a => if k ∈ rr then a else 0, ?_, g2, g3, g4, ?_, ?_⟩
  · unfold weighted
    rw [g1, Res.ok_bind]
    dsimp only
    rw [k1, Res.ok_bind]
  · simp [k2]
  · intro a b ha hb
    have hlt : a * (2 * d.h + 1) + b < r.length := by rw [k2, h.psf]; exact flat_lt ha hb
    rw [List.getD_eq_getElem?_getD, List.getElem?_mapIdx, List.getElem?_eq_getElem hlt]
    simp only [Option.map_some, Option.getD_some]
    have hget : r[a * (2 * d.h + 1) + b] = r.getD (a * (2 * d.h + 1) + b) 0 := by
      rw [List.getD_eq_getElem?_getD, List.getElem?_eq_getElem hlt]; rfl
    by_cases hh : d.has s a b
    · have hmem : ((s.iy - d.h + a).toNat * d.ny + (s.ix - d.h + b).toNat, a * (2 * d.h + 1) + b) ∈ rv.zip rr := by
        rw [g4]
        obtain ⟨q1, q2, q3, q4⟩ := hh
        refine ⟨(s.iy - d.h + a).toNat, (s.ix - d.h + b).toNat, by omega, by omega, by omega, by omega, by omega, by omega, rfl, ?_⟩
        rw [e1]
        push_cast
        rw [Int.toNat_of_nonneg (by omega), Int.toNat_of_nonneg (by omega)]
        ring
      have hin := (List.of_mem_zip hmem).2
      rw [if_pos hin, if_pos hh, hget, k3 _ hmem]
      rfl
    · rw [if_neg hh, if_neg]
      intro hin
      obtain ⟨m, hm, e⟩ := List.mem_iff_getElem.1 hin
      have hz : (rv[m]'(by omega), rr[m]) ∈ rv.zip rr := by
        have : (rv.zip rr)[m]'(by simp [g2]; omega) = (rv[m]'(by omega), rr[m]) := by simp
        rw [← this]
        exact List.getElem_mem _
      obtain ⟨a', b', ha', hb', hh', -, e2⟩ := key _ hz
      dsimp only at e2
      rw [e] at e2
      obtain ⟨rfl, rfl⟩ := flat_inj hb hb' e2
      exact hh hh'

theorem at_stamp [Field K] (d : Data K) (s : Src K) (t : List K)
    (ht : ∀ a b, a < 2 * d.h + 1 → b < 2 * d.h + 1 → d.has s a b → t.getD (a * (2 * d.h + 1) + b) 0 =
        s.psf.getD (a * (2 * d.h + 1) + b) 0 / d.e (s.iy - d.h + a).toNat (s.ix - d.h + b).toNat) (r c : Nat) (hr : r < d.nx) (hc : c < d.ny) (F : K → K) (hF : F 0 = 0) :
    (if s.iy - d.h ≤ (r : Int) ∧ (r : Int) ≤ s.iy + d.h ∧ s.ix - d.h ≤ (c : Int) ∧ (c : Int) ≤ s.ix + d.h then
      F (t.getD ((((r : Int) - (s.iy - d.h)) * (s.ix + d.h - (s.ix - d.h) + 1) + ((c : Int) - (s.ix - d.h))).toNat) 0) else 0) = F (s.at d.h r c / d.e r c) := by
  unfold Src.at
  by_cases hin : s.iy - d.h ≤ (r : Int) ∧ (r : Int) ≤ s.iy + d.h ∧ s.ix - d.h ≤ (c : Int) ∧ (c : Int) ≤ s.ix + d.h
  · rw [if_pos hin, if_pos (by rw [abs_le, abs_le]; omega)]
    obtain ⟨a, ha⟩ : ∃ a : Nat, (a : Int) = r - (s.iy - d.h) := ⟨((r : Int) - (s.iy - d.h)).toNat, by omega⟩
    obtain ⟨b, hb⟩ : ∃ b : Nat, (b : Int) = c - (s.ix - d.h) := ⟨((c : Int) - (s.ix - d.h)).toNat, by omega⟩
    have e1 : ((((r : Int) - (s.iy - d.h)) * (s.ix + d.h - (s.ix - d.h) + 1) + ((c : Int) - (s.ix - d.h))).toNat) = a * (2 * d.h + 1) + b := by
      have : (((r : Int) - (s.iy - d.h)) * (s.ix + d.h - (s.ix - d.h) + 1) + ((c : Int) - (s.ix - d.h))) = ((a * (2 * d.h + 1) + b : Nat) : Int) := by
        push_cast
        rw [← ha, ← hb]
        ring
      rw [this, Int.toNat_natCast]
    have e2 : (((r : Int) - s.iy + d.h) * (2 * d.h + 1) + (c - s.ix + d.h)).toNat = a * (2 * d.h + 1) + b := by
      have : (((r : Int) - s.iy + d.h) * (2 * d.h + 1) + (c - s.ix + d.h)) = ((a * (2 * d.h + 1) + b : Nat) : Int) := by
        push_cast
        rw [ha, hb]
        ring
      rw [this, Int.toNat_natCast]
    rw [e1, e2, ht a b (by omega) (by omega) ⟨by omega, by omega, by omega, by omega⟩]
    rw [show (s.iy - d.h + a).toNat = r by omega, show (s.ix - d.h + b).toNat = c by omega]
  · rw [if_neg hin, if_neg (by rw [abs_le, abs_le]; omega), zero_div, hF]

theorem zip_map {α β γ : Type} (l : List α) (m : List β) (f : α → β → γ) : (l.zip m).map (fun p => f p.1 p.2) = List.zipWith f l m := by
  rw [List.zip, List.map_zipWith]

theorem terms_ok [Field K] (d : Data K) (s : Src K) (h : Ok d s) :
    terms d s = .ok (∑ p ∈ d.pixels, (s.at d.h p.1 p.2 / d.e p.1 p.2) ^ 2,
      ∑ p ∈ d.pixels, d.snr.getD (p.1 * d.ny + p.2) 0 * (s.at d.h p.1 p.2 / d.e p.1 p.2),
      ∑ p ∈ d.pixels, s.at d.h p.1 p.2 / d.e p.1 p.2 / d.e p.1 p.2) := by
  obtain ⟨idi, idp, t, h1, h2, h3, h4, h5, h6⟩ := weighted_ok d s h
  have hidx : ∀ i ∈ idi, i < d.nx * d.ny := by
    intro i hi
    obtain ⟨m, hm, rfl⟩ := List.mem_iff_getElem.1 hi
    have hz : (idi[m], idp[m]'(by omega)) ∈ idi.zip idp := by
      have : (idi.zip idp)[m]'(by simp [h2]; omega) = (idi[m], idp[m]'(by omega)) := by simp
      rw [← this]
      exact List.getElem_mem _
    exact (C64_bounds _ _ _ _ _ _ _ ((h4 _).1 hz)).1
  have hidp : ∀ i ∈ idp, i < t.length := by
    intro i hi
    obtain ⟨m, hm, rfl⟩ := List.mem_iff_getElem.1 hi
    have hz : (idi[m]'(by omega), idp[m]) ∈ idi.zip idp := by
      have : (idi.zip idp)[m]'(by simp [h2]; omega) = (idi[m]'(by omega), idp[m]) := by simp
      rw [← this]
      exact List.getElem_mem _
    have := (C64_bounds _ _ _ _ _ _ _ ((h4 _).1 hz)).2
    rw [h5, h.psf]
    have e1 : s.iy + d.h - (s.iy - d.h) + 1 = ((2 * d.h + 1 : Nat) : Int) := by push_cast; ring
    have e2 : s.ix + d.h - (s.ix - d.h) + 1 = ((2 * d.h + 1 : Nat) : Int) := by push_cast; ring
    rw [e1, e2] at this
    exact_mod_cast this
  have h6' : ∀ a b, a < 2 * d.h + 1 → b < 2 * d.h + 1 → d.has s a b → t.getD (a * (2 * d.h + 1) + b) 0 =
        s.psf.getD (a * (2 * d.h + 1) + b) 0 / d.e (s.iy - d.h + a).toNat (s.ix - d.h + b).toNat := by
    intro a b ha hb hh
    rw [h6 a b ha hb, if_pos hh]
  unfold terms
  rw [h1, Res.ok_bind]
  dsimp only
  rw [gather_ok d.err 0 idi (by rw [h.err]; exact hidx), Res.ok_bind, gather_ok t 0 idp hidp, Res.ok_bind, gather_ok d.snr 0 idi (by rw [h.snr]; exact hidx), Res.ok_bind]
  congr 1
  refine Prod.ext ?_ (Prod.ext ?_ ?_)
  · dsimp only
    rw [List.map_map]
    have : idp.map ((fun a => a ^ 2) ∘ fun i => t.getD i 0) = (idi.zip idp).map fun p => (fun (_ k : Nat) => (t.getD k 0) ^ 2) p.1 p.2 := by
      conv_lhs => rw [← List.map_snd_zip (l₁ := idi) (l₂ := idp) (by omega), List.map_map]
      rfl
    rw [this, sum_region _ _ _ _ _ _ _ h3 h4 (fun _ k => (t.getD k 0) ^ 2)]
    apply Finset.sum_congr rfl
    intro p hp
    unfold Data.pixels at hp
    rw [Finset.mem_product, Finset.mem_range, Finset.mem_range] at hp
    exact at_stamp d s t h6' p.1 p.2 hp.1 hp.2 (fun a => a ^ 2) (by simp)
  · dsimp only
    rw [List.zipWith_map, ← zip_map, sum_region _ _ _ _ _ _ _ h3 h4 (fun a b => d.snr.getD a 0 * t.getD b 0)]
    apply Finset.sum_congr rfl
    intro p hp
    unfold Data.pixels at hp
    rw [Finset.mem_product, Finset.mem_range, Finset.mem_range] at hp
    exact at_stamp d s t h6' p.1 p.2 hp.1 hp.2 (fun a => d.snr.getD (p.1 * d.ny + p.2) 0 * a) (by simp)
  · dsimp only
    rw [List.zipWith_map, List.zipWith_comm, ← zip_map, sum_region _ _ _ _ _ _ _ h3 h4 (fun a b => t.getD b 0 / d.err.getD a 0)]
    apply Finset.sum_congr rfl
    intro p hp
    unfold Data.pixels at hp
    rw [Finset.mem_product, Finset.mem_range, Finset.mem_range] at hp
    exact at_stamp d s t h6' p.1 p.2 hp.1 hp.2 (fun a => a / d.err.getD (p.1 * d.ny + p.2) 0) (by simp)

open Classical in
/-- the products of two stamps where they overlap are the products on the map -/
theorem sum_stamps [Field K] (d : Data K) (si sj : Src K) :
    (∑ p ∈ range (2 * d.h + 1) ×ˢ range (2 * d.h + 1),
      if si.iy - sj.iy ≤ (p.1 : Int) ∧ (p.1 : Int) ≤ si.iy - sj.iy + 2 * d.h ∧ si.ix - sj.ix ≤ (p.2 : Int) ∧ (p.2 : Int) ≤ si.ix - sj.ix + 2 * d.h then
        (if d.has sj p.1 p.2 then sj.psf.getD (p.1 * (2 * d.h + 1) + p.2) 0 / d.e (sj.iy - d.h + p.1).toNat (sj.ix - d.h + p.2).toNat else 0) *
        (if d.has si (p.1 - (si.iy - sj.iy)).toNat (p.2 - (si.ix - sj.ix)).toNat then
          si.psf.getD ((p.1 - (si.iy - sj.iy)).toNat * (2 * d.h + 1) + (p.2 - (si.ix - sj.ix)).toNat) 0 /
            d.e (si.iy - d.h + (p.1 - (si.iy - sj.iy)).toNat).toNat (si.ix - d.h + (p.2 - (si.ix - sj.ix)).toNat).toNat else 0)
      else 0) = ∑ p ∈ d.pixels, (si.at d.h p.1 p.2 / d.e p.1 p.2) * (sj.at d.h p.1 p.2 / d.e p.1 p.2) := by
  have hL : ∀ p ∈ range (2 * d.h + 1) ×ˢ range (2 * d.h + 1), ∀ q r : K,
      (if si.iy - sj.iy ≤ (p.1 : Int) ∧ (p.1 : Int) ≤ si.iy - sj.iy + 2 * d.h ∧ si.ix - sj.ix ≤ (p.2 : Int) ∧ (p.2 : Int) ≤ si.ix - sj.ix + 2 * d.h then
        (if d.has sj p.1 p.2 then q else 0) * (if d.has si (p.1 - (si.iy - sj.iy)).toNat (p.2 - (si.ix - sj.ix)).toNat then r else 0) else 0) =
      if (si.iy - sj.iy ≤ (p.1 : Int) ∧ (p.1 : Int) ≤ si.iy - sj.iy + 2 * d.h ∧ si.ix - sj.ix ≤ (p.2 : Int) ∧ (p.2 : Int) ≤ si.ix - sj.ix + 2 * d.h) ∧ d.has sj p.1 p.2 then q * r else 0 := by
    intro p hp q r
    by_cases h1 : si.iy - sj.iy ≤ (p.1 : Int) ∧ (p.1 : Int) ≤ si.iy - sj.iy + 2 * d.h ∧ si.ix - sj.ix ≤ (p.2 : Int) ∧ (p.2 : Int) ≤ si.ix - sj.ix + 2 * d.h
    · by_cases h2 : d.has sj p.1 p.2
      · have h3 : d.has si (p.1 - (si.iy - sj.iy)).toNat (p.2 - (si.ix - sj.ix)).toNat := by
          unfold Data.has at *
          omega
        rw [if_pos h1, if_pos h2, if_pos h3, if_pos ⟨h1, h2⟩]
      · rw [if_pos h1, if_neg h2, zero_mul, if_neg fun h => h2 h.2]
    · rw [if_neg h1, if_neg fun h => h1 h.1]
  rw [Finset.sum_congr rfl fun p hp => hL p hp _ _, ← Finset.sum_filter]
  have hR : ∀ p ∈ d.pixels, (si.at d.h p.1 p.2 / d.e p.1 p.2) * (sj.at d.h p.1 p.2 / d.e p.1 p.2) =
      if (|(p.1 : Int) - si.iy| ≤ d.h ∧ |(p.2 : Int) - si.ix| ≤ d.h) ∧ (|(p.1 : Int) - sj.iy| ≤ d.h ∧ |(p.2 : Int) - sj.ix| ≤ d.h) then
        (si.psf.getD (((p.1 - si.iy + d.h) * (2 * d.h + 1) + (p.2 - si.ix + d.h) : Int).toNat) 0 / d.e p.1 p.2) *
        (sj.psf.getD (((p.1 - sj.iy + d.h) * (2 * d.h + 1) + (p.2 - sj.ix + d.h) : Int).toNat) 0 / d.e p.1 p.2) else 0 := by
    intro p hp
    unfold Src.at
    by_cases h1 : |(p.1 : Int) - si.iy| ≤ d.h ∧ |(p.2 : Int) - si.ix| ≤ d.h
    · by_cases h2 : |(p.1 : Int) - sj.iy| ≤ d.h ∧ |(p.2 : Int) - sj.ix| ≤ d.h
      · rw [if_pos h1, if_pos h2, if_pos ⟨h1, h2⟩]
      · rw [if_neg h2, zero_div, mul_zero, if_neg fun h => h2 h.2]
    · rw [if_neg h1, zero_div, zero_mul, if_neg fun h => h1 h.1]
  rw [Finset.sum_congr rfl hR, ← Finset.sum_filter]
  apply Finset.sum_nbij' (fun p : Nat × Nat => ((sj.iy - d.h + p.1).toNat, (sj.ix - d.h + p.2).toNat)) (fun p : Nat × Nat => (((p.1 : Int) - sj.iy + d.h).toNat, ((p.2 : Int) - sj.ix + d.h).toNat))
  · rintro ⟨a, b⟩ hp
    have hp := Finset.mem_filter.1 hp
    simp only [Finset.mem_product, Finset.mem_range, Data.has, Data.pixels, abs_le] at hp
    refine Finset.mem_filter.2 ?_
    simp only [Finset.mem_product, Finset.mem_range, Data.has, Data.pixels, abs_le]
    omega
  · rintro ⟨a, b⟩ hp
    have hp := Finset.mem_filter.1 hp
    simp only [Finset.mem_product, Finset.mem_range, Data.has, Data.pixels, abs_le] at hp
    refine Finset.mem_filter.2 ?_
    simp only [Finset.mem_product, Finset.mem_range, Data.has, Data.pixels, abs_le]
    omega
  · rintro ⟨a, b⟩ hp
    have hp := Finset.mem_filter.1 hp
    simp only [Finset.mem_product, Finset.mem_range, Data.has, Data.pixels, abs_le] at hp
    ext <;> dsimp only <;> omega
  · rintro ⟨a, b⟩ hp
    have hp := Finset.mem_filter.1 hp
    simp only [Finset.mem_product, Finset.mem_range, Data.has, Data.pixels, abs_le] at hp
    ext <;> dsimp only <;> omega
  · rintro ⟨a, b⟩ hp
    have hp := Finset.mem_filter.1 hp
    simp only [Finset.mem_product, Finset.mem_range, Data.has, Data.pixels, abs_le] at hp
    have k1 : (si.iy - d.h + ((a : Int) - (si.iy - sj.iy)).toNat).toNat = (sj.iy - d.h + a).toNat := by omega
    have k2 : (si.ix - d.h + ((b : Int) - (si.ix - sj.ix)).toNat).toNat = (sj.ix - d.h + b).toNat := by omega
    rw [k1, k2, mul_comm]
    have k3 : ((((sj.iy - d.h + a).toNat : Nat) : Int) - si.iy + d.h) = ((a : Int) - (si.iy - sj.iy)).toNat := by omega
    have k4 : ((((sj.ix - d.h + b).toNat : Nat) : Int) - si.ix + d.h) = ((b : Int) - (si.ix - sj.ix)).toNat := by omega
    have k5 : ((((sj.iy - d.h + a).toNat : Nat) : Int) - sj.iy + d.h) = a := by omega
    have k6 : ((((sj.ix - d.h + b).toNat : Nat) : Int) - sj.ix + d.h) = b := by omega
    rw [k3, k4, k5, k6]
    have k7 : ∀ u v : Nat, ((u : Int) * (2 * d.h + 1) + v).toNat = u * (2 * d.h + 1) + v := by
      intro u v
      have : ((u : Int) * (2 * d.h + 1) + v) = ((u * (2 * d.h + 1) + v : Nat) : Int) := by push_cast; ring
      rw [this, Int.toNat_natCast]
    rw [k7, k7]

theorem cross_ok [Field K] (d : Data K) (si sj : Src K) (hi : Ok d si) (hj : Ok d sj) :
    cross d si sj = .ok (∑ p ∈ d.pixels, (si.at d.h p.1 p.2 / d.e p.1 p.2) * (sj.at d.h p.1 p.2 / d.e p.1 p.2)) := by
  classical
  obtain ⟨idi, idp, ti, h1, -, -, -, h5, h6⟩ := weighted_ok d si hi
  obtain ⟨idi', idp', tj, h1', -, -, -, h5', h6'⟩ := weighted_ok d sj hj
  unfold cross
  rw [h1, Res.ok_bind]
  dsimp only
  by_cases hc : |si.ix - sj.ix| ≤ 2 * (d.h : Int) ∧ |si.iy - sj.iy| ≤ 2 * (d.h : Int)
  · rw [if_pos hc]
    have hh := hi.h
    rw [abs_le, abs_le] at hc
    have hf : Fits (2 * d.h + 1) (2 * d.h + 1) (si.iy - sj.iy) (si.ix - sj.ix) (si.iy - sj.iy + 2 * d.h) (si.ix - sj.ix + 2 * d.h) := by
      have h2 : (2 * d.h + 1) * (2 * d.h + 1) < 2 ^ 63 := by
        have : (2 * d.h + 1) * (2 * d.h + 1) ≤ 2 ^ 22 * 2 ^ 22 := Nat.mul_le_mul (by omega) (by omega)
        omega
      refine ⟨by omega, by omega, by omega, by omega, h2, ?_⟩
      have e1 : si.iy - sj.iy + 2 * d.h - (si.iy - sj.iy) + 1 = ((2 * d.h + 1 : Nat) : Int) := by push_cast; ring
      have e2 : si.ix - sj.ix + 2 * d.h - (si.ix - sj.ix) + 1 = ((2 * d.h + 1 : Nat) : Int) := by push_cast; ring
      rw [e1, e2]
      exact_mod_cast h2
    obtain ⟨pj, pi, g1, g2, g3, g4, -⟩ := subregion_spec _ _ _ _ _ _ hf
    rw [g1, Res.ok_bind]
    dsimp only
    have e2 : si.ix - sj.ix + 2 * d.h - (si.ix - sj.ix) + 1 = ((2 * d.h + 1 : Nat) : Int) := by push_cast; ring
    have e1 : si.iy - sj.iy + 2 * d.h - (si.iy - sj.iy) + 1 = ((2 * d.h + 1 : Nat) : Int) := by push_cast; ring
    have hb : ∀ p ∈ pj.zip pi, p.1 < tj.length ∧ p.2 < ti.length := by
      intro p hp
      have := C64_bounds _ _ _ _ _ _ _ ((g4 p).1 hp)
      rw [e1, e2] at this
      rw [h5, h5', hi.psf, hj.psf]
      exact ⟨this.1, by exact_mod_cast this.2⟩
    have key : ((pj.zip pi).map fun p => (fun a b => tj.getD a 0 * ti.getD b 0) p.1 p.2).sum = ∑ p ∈ d.pixels, (si.at d.h p.1 p.2 / d.e p.1 p.2) * (sj.at d.h p.1 p.2 / d.e p.1 p.2) := by
      rw [sum_region _ _ _ _ _ _ _ g3 g4 (fun a b => tj.getD a 0 * ti.getD b 0), ← sum_stamps]
      apply Finset.sum_congr rfl
      rintro ⟨a, b⟩ hp
      rw [Finset.mem_product, Finset.mem_range, Finset.mem_range] at hp
      dsimp only at hp ⊢
      by_cases hin : si.iy - sj.iy ≤ (a : Int) ∧ (a : Int) ≤ si.iy - sj.iy + 2 * d.h ∧ si.ix - sj.ix ≤ (b : Int) ∧ (b : Int) ≤ si.ix - sj.ix + 2 * d.h
      · rw [if_pos hin, if_pos hin, h6' a b hp.1 hp.2]
        have e3 : (((a : Int) - (si.iy - sj.iy)) * (si.ix - sj.ix + 2 * d.h - (si.ix - sj.ix) + 1) + ((b : Int) - (si.ix - sj.ix))).toNat =
            ((a : Int) - (si.iy - sj.iy)).toNat * (2 * d.h + 1) + ((b : Int) - (si.ix - sj.ix)).toNat := by
          have : (((a : Int) - (si.iy - sj.iy)) * (si.ix - sj.ix + 2 * d.h - (si.ix - sj.ix) + 1) + ((b : Int) - (si.ix - sj.ix))) =
              ((((a : Int) - (si.iy - sj.iy)).toNat * (2 * d.h + 1) + ((b : Int) - (si.ix - sj.ix)).toNat : Nat) : Int) := by
            rw [e2]
            push_cast
            rw [Int.toNat_of_nonneg (by omega), Int.toNat_of_nonneg (by omega)]
          rw [this, Int.toNat_natCast]
        rw [e3, h6 _ _ (by omega) (by omega)]
      · rw [if_neg hin, if_neg hin]
    by_cases he : pi = []
    · rw [if_pos he]
      rw [he, List.zip_nil_right] at key
      rw [← key]
      rfl
    · rw [if_neg he, h1', Res.ok_bind]
      dsimp only
      have hz : ∀ m (h1 : m < pj.length) (h2 : m < pi.length), (pj[m], pi[m]) ∈ pj.zip pi := by
        intro m h1 h2
        have : (pj.zip pi)[m]'(by simp [g2]; omega) = (pj[m], pi[m]) := by simp
        rw [← this]
        exact List.getElem_mem _
      rw [gather_ok tj 0 pj, Res.ok_bind, gather_ok ti 0 pi, Res.ok_bind, List.zipWith_map, ← zip_map (f := fun a b => tj.getD a 0 * ti.getD b 0)]
      · congr 1
      · intro i hi
        obtain ⟨m, hm, rfl⟩ := List.mem_iff_getElem.1 hi
        exact (hb _ (hz m (by omega) hm)).2
      · intro i hi
        obtain ⟨m, hm, rfl⟩ := List.mem_iff_getElem.1 hi
        exact (hb _ (hz m hm (by omega))).1
  · rw [if_neg hc]
    congr 1
    symm
    apply Finset.sum_eq_zero
    intro p hp
    unfold Src.at
    by_cases h1 : |(p.1 : Int) - si.iy| ≤ d.h ∧ |(p.2 : Int) - si.ix| ≤ d.h
    · rw [if_neg (c := |(p.1 : Int) - sj.iy| ≤ d.h ∧ |(p.2 : Int) - sj.ix| ≤ d.h)]
      · simp
      · intro h2
        apply hc
        rw [abs_le, abs_le] at *
        omega
    · rw [if_neg h1]
      simp

theorem sum_flat [Field K] (f : Nat → K) (nx ny : Nat) : ∑ k ∈ range (nx * ny), f k = ∑ p ∈ range nx ×ˢ range ny, f (p.1 * ny + p.2) := by
  rw [Finset.sum_product]
  induction nx with
  | zero => simp
  | succ n ih => rw [Nat.succ_mul, Finset.sum_range_add, ih, Finset.sum_range_succ]

theorem sum_list [Field K] (l : List K) : l.sum = ∑ k ∈ range l.length, l.getD k 0 := by
  induction l with
  | nil => simp
  | cons a l ih => rw [List.sum_cons, List.length_cons, Finset.sum_range_succ', ih, add_comm]; simp

/-- the products of the components, with the weights of the pixels and the priors -/
def gram [Field K] {n : Nat} {free : Bool} (d : Data K) (srcs : Fin n → Src K) (prior : Option (Fin n → K × K)) (a b : Comp n free) : K :=
  ∑ p ∈ d.pixels, (shape d srcs a p / d.e p.1 p.2) * (shape d srcs b p / d.e p.1 p.2) +
    match prior with
    | some q => ∑ i, (if a = Sum.inl i then 1 / (q i).2 else 0) * (if b = Sum.inl i then 1 / (q i).2 else 0)
    | none => 0

/-- the products of the components with the data -/
def rhs [Field K] {n : Nat} {free : Bool} (d : Data K) (srcs : Fin n → Src K) (prior : Option (Fin n → K × K)) (a : Comp n free) : K :=
  ∑ p ∈ d.pixels, (shape d srcs a p / d.e p.1 p.2) * (d.y p.1 p.2 / d.e p.1 p.2) +
    match prior with
    | some q => ∑ i, (if a = Sum.inl i then 1 / (q i).2 else 0) * ((q i).1 / (q i).2)
    | none => 0

theorem prior_gram [Field K] {n : Nat} {free : Bool} (prior : Option (Fin n → K × K)) (a b : Comp n free) :
    (match prior with
    | some q => ∑ i, (if a = Sum.inl i then 1 / (q i).2 else 0) * (if b = Sum.inl i then 1 / (q i).2 else 0)
    | none => 0) = match a with
    | .inl i => if b = Sum.inl i then (match prior with
      | some p => 1 / (p i).2 ^ 2
      | none => 0) else 0
    | .inr _ => 0 := by
  cases prior with
  | none => cases a <;> simp
  | some q =>
    cases a with
    | inr u => simp
    | inl i =>
      dsimp only
      rw [Finset.sum_eq_single i]
      · by_cases h : b = Sum.inl i
        · rw [if_pos rfl, if_pos h, if_pos h]; ring
        · rw [if_neg h, if_neg h, mul_zero]
      · intro j _ hj
        rw [if_neg (by simpa using Ne.symm hj), zero_mul]
      · simp

theorem prior_rhs [Field K] {n : Nat} {free : Bool} (prior : Option (Fin n → K × K)) (a : Comp n free) :
    (match prior with
    | some q => ∑ i, (if a = Sum.inl i then 1 / (q i).2 else 0) * ((q i).1 / (q i).2)
    | none => 0) = match a with
    | .inl i => (match prior with
      | some p => (p i).1 / (p i).2 ^ 2
      | none => 0)
    | .inr _ => 0 := by
  cases prior with
  | none => cases a <;> simp
  | some q =>
    cases a with
    | inr u => simp
    | inl i =>
      dsimp only
      rw [Finset.sum_eq_single i]
      · rw [if_pos rfl]; ring
      · intro j _ hj
        rw [if_neg (by simpa using Ne.symm hj), zero_mul]
      · simp

/-! ### C200 -/

/-- The matrix and the vector of the fit are those of the normal equations on the whole map, although they are computed on the stamps of the sources. -/
theorem C200_system [Field K] {n : Nat} (d : Data K) (srcs : Fin n → Src K) (prior : Option (Fin n → K × K)) (free : Bool) (h : ∀ i, Ok d (srcs i))
    (hs : d.snr.length = d.nx * d.ny) (he' : d.err.length = d.nx * d.ny) (he : ∀ p ∈ d.pixels, d.e p.1 p.2 ≠ 0) :
    system d srcs prior free = .ok (Matrix.of (gram d srcs prior), rhs d srcs prior) := by
  unfold system
  rw [seqFin_ok fun i => terms_ok d (srcs i) (h i), Res.ok_bind]
  rw [seqFin_ok (g := fun i j => if i < j then ∑ p ∈ d.pixels, ((srcs i).at d.h p.1 p.2 / d.e p.1 p.2) * ((srcs j).at d.h p.1 p.2 / d.e p.1 p.2) else 0)
    fun i => seqFin_ok fun j => by
      by_cases hij : i < j
      · rw [if_pos hij, if_pos hij, cross_ok d _ _ (h i) (h j)]
      · rw [if_neg hij, if_neg hij], Res.ok_bind]
  dsimp only
  congr 1
  refine Prod.ext ?_ ?_
  · ext a b
    dsimp only
    rw [Matrix.of_apply, Matrix.of_apply]
    unfold gram
    rw [prior_gram]
    cases a with
    | inl i =>
      cases b with
      | inl j =>
        dsimp only [shape]
        by_cases hij : i = j
        · subst hij
          rw [if_pos rfl, if_pos rfl]
          congr 1
          exact Finset.sum_congr rfl fun p _ => by ring
        · rw [if_neg hij, if_neg (show ¬ (Sum.inl j : Comp n free) = Sum.inl i from fun e => hij (Sum.inl.inj e).symm), add_zero]
          by_cases hlt : i < j
          · rw [if_pos hlt, if_pos hlt]
          · rw [if_neg hlt, if_pos (lt_of_le_of_ne (not_lt.1 hlt) (Ne.symm hij))]
            exact Finset.sum_congr rfl fun p _ => by ring
      | inr u =>
        dsimp only [shape]
        rw [if_neg (by simp), add_zero]
        exact Finset.sum_congr rfl fun p _ => by ring
    | inr u =>
      cases b with
      | inl j =>
        dsimp only [shape]
        rw [add_zero]
        exact Finset.sum_congr rfl fun p _ => by ring
      | inr u' =>
        dsimp only [shape]
        rw [add_zero, sum_list, List.length_map, he', sum_flat (fun k => (d.err.map fun e => 1 / e ^ 2).getD k 0)]
        refine Finset.sum_congr rfl fun p hp => ?_
        have hlt : p.1 * d.ny + p.2 < d.err.length := by
          unfold Data.pixels at hp
          rw [Finset.mem_product, Finset.mem_range, Finset.mem_range] at hp
          rw [he']; exact flat_lt hp.1 hp.2
        unfold Data.e
        rw [List.getD_eq_getElem?_getD, List.getD_eq_getElem?_getD, List.getElem?_map, List.getElem?_eq_getElem hlt]
        simp only [Option.map_some, Option.getD_some]
        ring
  · funext a
    dsimp only
    unfold rhs
    rw [prior_rhs]
    cases a with
    | inl i =>
      dsimp only [shape]
      congr 1
      refine Finset.sum_congr rfl fun p hp => ?_
      unfold Data.y
      rw [mul_div_assoc, div_self (he p hp)]
      ring
    | inr u =>
      dsimp only [shape]
      rw [add_zero, sum_list, List.length_zipWith, hs, he', min_self, sum_flat (fun k => (List.zipWith (· / ·) d.snr d.err).getD k 0)]
      refine Finset.sum_congr rfl fun p hp => ?_
      have hlt : p.1 * d.ny + p.2 < d.nx * d.ny := by
        have hp := hp
        unfold Data.pixels at hp
        rw [Finset.mem_product, Finset.mem_range, Finset.mem_range] at hp
        exact flat_lt hp.1 hp.2
      unfold Data.y
      rw [mul_div_assoc, div_self (he p hp)]
      unfold Data.e
      simp only [List.getD_eq_getElem?_getD, List.getElem?_zipWith, List.getElem?_eq_getElem (hs ▸ hlt), List.getElem?_eq_getElem (he' ▸ hlt)]
      simp
      ring

section
variable [Field K] {ι τ : Type} [Fintype ι]

/-- the squares of the residuals of two sets of parameters -/
theorem split_sq (S : Finset τ) (c : ι → τ → K) (y : τ → K) (v w : ι → K) :
    ∑ t ∈ S, (y t - ∑ a, w a * c a t) ^ 2 = ∑ t ∈ S, (y t - ∑ a, v a * c a t) ^ 2 + ∑ t ∈ S, (∑ a, (w a - v a) * c a t) ^ 2 -
      2 * ∑ a, (w a - v a) * (∑ t ∈ S, c a t * y t - ∑ b, (∑ t ∈ S, c a t * c b t) * v b) := by
  have e1 : ∑ a, (w a - v a) * (∑ t ∈ S, c a t * y t - ∑ b, (∑ t ∈ S, c a t * c b t) * v b) = ∑ t ∈ S, (∑ a, (w a - v a) * c a t) * (y t - ∑ b, v b * c b t) := by
    have : ∀ a, (∑ t ∈ S, c a t * y t - ∑ b, (∑ t ∈ S, c a t * c b t) * v b) = ∑ t ∈ S, c a t * (y t - ∑ b, v b * c b t) := by
      intro a
      simp only [mul_sub, Finset.sum_sub_distrib, Finset.sum_mul, Finset.mul_sum]
      congr 1
      rw [Finset.sum_comm]
      exact Finset.sum_congr rfl fun t _ => Finset.sum_congr rfl fun b _ => by ring
    rw [Finset.sum_congr rfl fun a _ => by rw [this a, Finset.mul_sum], Finset.sum_comm]
    refine Finset.sum_congr rfl fun t _ => ?_
    rw [Finset.sum_mul]
    exact Finset.sum_congr rfl fun b _ => by ring
  rw [e1, Finset.mul_sum, ← Finset.sum_add_distrib, ← Finset.sum_sub_distrib]
  refine Finset.sum_congr rfl fun t _ => ?_
  have e2 : ∑ a, (w a - v a) * c a t = ∑ a, w a * c a t - ∑ a, v a * c a t := by simp only [sub_mul, Finset.sum_sub_distrib]
  rw [e2]
  ring

end

/-- the chi2 as sums of squares -/
theorem chi2_eq [Field K] {n : Nat} {free : Bool} (d : Data K) (srcs : Fin n → Src K) (prior : Option (Fin n → K × K)) (v : Comp n free → K) :
    chi2 d srcs prior v = ∑ p ∈ d.pixels, (d.y p.1 p.2 / d.e p.1 p.2 - ∑ a, v a * (shape d srcs a p / d.e p.1 p.2)) ^ 2 +
      match prior with
      | some q => ∑ i, ((q i).1 / (q i).2 - ∑ a : Comp n free, v a * (if a = Sum.inl i then 1 / (q i).2 else 0)) ^ 2
      | none => 0 := by
  unfold chi2
  congr 1
  · refine Finset.sum_congr rfl fun p _ => ?_
    rw [sub_div, Finset.sum_div]
    simp only [mul_div_assoc]
  · cases prior with
    | none => rfl
    | some q =>
      refine Finset.sum_congr rfl fun i _ => ?_
      rw [Finset.sum_eq_single (Sum.inl i)]
      · rw [if_pos rfl]; ring
      · intro b _ hb
        rw [if_neg hb, mul_zero]
      · simp

/-- The result of the fit is the best one: any other set of fluxes and background has a higher chi2 on the map and the priors. The covariance is the inverse of the matrix of the
fit. -/
theorem C200_best [Field K] [LinearOrder K] [IsStrictOrderedRing K] {n : Nat} (d : Data K) (srcs : Fin n → Src K) (prior : Option (Fin n → K × K)) (free : Bool)
    (h : ∀ i, Ok d (srcs i)) (hs : d.snr.length = d.nx * d.ny) (he' : d.err.length = d.nx * d.ny) (he : ∀ p ∈ d.pixels, d.e p.1 p.2 ≠ 0)
    (v : Comp n free → K) (cov : Matrix (Comp n free) (Comp n free) K) (hf : fit d srcs prior free = .ok (some (v, cov))) :
    (∀ w, w ≠ v → chi2 d srcs prior v < chi2 d srcs prior w) ∧ cov * Matrix.of (gram d srcs prior) = 1 := by
  unfold fit at hf
  rw [C200_system d srcs prior free h hs he' he, Res.ok_bind] at hf
  dsimp only at hf
  split at hf
  · next hdet =>
    simp only [Res.ok.injEq, Option.some.injEq, Prod.mk.injEq] at hf
    obtain ⟨rfl, rfl⟩ := hf
    have hu : IsUnit (Matrix.of (gram d srcs prior) : Matrix (Comp n free) (Comp n free) K).det := isUnit_iff_ne_zero.2 hdet
    refine ⟨?_, Matrix.nonsing_inv_mul _ hu⟩
    generalize hv : (Matrix.of (gram d srcs prior) : Matrix (Comp n free) (Comp n free) K)⁻¹.mulVec (rhs d srcs prior) = v
    have hn : ∀ a, ∑ b, gram d srcs prior a b * v b = rhs d srcs prior a := by
      intro a
      have : (Matrix.of (gram d srcs prior) : Matrix (Comp n free) (Comp n free) K).mulVec v = rhs d srcs prior := by
        rw [← hv, Matrix.mulVec_mulVec, Matrix.mul_nonsing_inv _ hu, Matrix.one_mulVec]
      exact congrFun this a
    intro w hw
    -- the difference of the chi2
    have hdiff : chi2 d srcs prior w = chi2 d srcs prior v + (∑ p ∈ d.pixels, (∑ a, (w a - v a) * (shape d srcs a p / d.e p.1 p.2)) ^ 2 +
        match (generalizing := false) prior with
        | some q => ∑ i, (∑ a : Comp n free, (w a - v a) * (if a = Sum.inl i then 1 / (q i).2 else 0)) ^ 2
        | none => 0) := by
      rw [chi2_eq, chi2_eq, split_sq d.pixels (fun a p => shape d srcs a p / d.e p.1 p.2) _ v w]
      cases prior with
      | none =>
        have : ∀ a : Comp n free, (∑ p ∈ d.pixels, shape d srcs a p / d.e p.1 p.2 * (d.y p.1 p.2 / d.e p.1 p.2) -
            ∑ b, (∑ p ∈ d.pixels, shape d srcs a p / d.e p.1 p.2 * (shape d srcs b p / d.e p.1 p.2)) * v b) = 0 := by
          intro a
          have := hn a
          unfold gram rhs at this
          simp only [add_zero] at this
          rw [this, sub_self]
        simp only [this, mul_zero, Finset.sum_const_zero, sub_zero, add_zero]
      | some q =>
        dsimp only
        rw [split_sq Finset.univ (fun (a : Comp n free) i => if a = Sum.inl i then 1 / (q i).2 else 0) _ v w]
        have : ∑ a, (w a - v a) * (∑ p ∈ d.pixels, shape d srcs a p / d.e p.1 p.2 * (d.y p.1 p.2 / d.e p.1 p.2) -
            ∑ b, (∑ p ∈ d.pixels, shape d srcs a p / d.e p.1 p.2 * (shape d srcs b p / d.e p.1 p.2)) * v b) +
            ∑ a, (w a - v a) * (∑ i, (if a = Sum.inl i then 1 / (q i).2 else 0) * ((q i).1 / (q i).2) -
            ∑ b, (∑ i, (if a = Sum.inl i then 1 / (q i).2 else 0) * (if b = Sum.inl i then 1 / (q i).2 else 0)) * v b) = 0 := by
          rw [← Finset.sum_add_distrib]
          apply Finset.sum_eq_zero
          intro a _
          have := hn a
          unfold gram rhs at this
          simp only [add_mul, Finset.sum_add_distrib] at this
          rw [← mul_add]
          apply mul_eq_zero_of_right
          linear_combination -this
        linear_combination (-2 : K) * this
    rw [hdiff, lt_add_iff_pos_right]
    have h1 : 0 ≤ ∑ p ∈ d.pixels, (∑ a, (w a - v a) * (shape d srcs a p / d.e p.1 p.2)) ^ 2 := Finset.sum_nonneg fun _ _ => sq_nonneg _
    have h2 : 0 ≤ (match (generalizing := false) prior with
        | some q => ∑ i, (∑ a : Comp n free, (w a - v a) * (if a = Sum.inl i then 1 / (q i).2 else 0)) ^ 2
        | none => 0) := by
      cases prior with
      | none => exact le_rfl
      | some q => exact Finset.sum_nonneg fun _ _ => sq_nonneg _
    refine lt_of_le_of_ne (add_nonneg h1 h2) fun h0 => hw ?_
    -- both are zero, hence the difference is in the kernel
    have hz1 := (add_eq_zero_iff_of_nonneg h1 h2).1 h0.symm
    have hk : (Matrix.of (gram d srcs prior) : Matrix (Comp n free) (Comp n free) K).mulVec (w - v) = 0 := by
      funext a
      rw [Pi.zero_apply, Matrix.mulVec, dotProduct]
      simp only [Matrix.of_apply, Pi.sub_apply, gram, add_mul, Finset.sum_add_distrib]
      have p1 : ∑ b, (∑ p ∈ d.pixels, shape d srcs a p / d.e p.1 p.2 * (shape d srcs b p / d.e p.1 p.2)) * (w b - v b) = 0 := by
        have hz := (Finset.sum_eq_zero_iff_of_nonneg fun _ _ => sq_nonneg _).1 hz1.1
        simp only [Finset.sum_mul]
        rw [Finset.sum_comm]
        apply Finset.sum_eq_zero
        intro p hp
        have := pow_eq_zero_iff (two_ne_zero) |>.1 (hz p hp)
        rw [← mul_zero (shape d srcs a p / d.e p.1 p.2), ← this, Finset.mul_sum]
        exact Finset.sum_congr rfl fun b _ => by ring
      rw [p1, zero_add]
      cases prior with
      | none => simp
      | some q =>
        dsimp only at hz1 ⊢
        have hz := (Finset.sum_eq_zero_iff_of_nonneg fun _ _ => sq_nonneg _).1 hz1.2
        simp only [Finset.sum_mul]
        rw [Finset.sum_comm]
        apply Finset.sum_eq_zero
        intro i hi
        have := pow_eq_zero_iff (two_ne_zero) |>.1 (hz i hi)
        have e : ∀ X : K, ∑ b, X * (if b = Sum.inl i then 1 / (q i).2 else 0) * (w b - v b) = X * ∑ b, (w b - v b) * (if b = Sum.inl i then 1 / (q i).2 else 0) := by
          intro X
          rw [Finset.mul_sum]
          exact Finset.sum_congr rfl fun b _ => by ring
        rw [e, this, mul_zero]
    have : w - v = 0 := by
      have h3 : (Matrix.of (gram d srcs prior) : Matrix (Comp n free) (Comp n free) K)⁻¹.mulVec ((Matrix.of (gram d srcs prior)).mulVec (w - v)) = w - v := by
        rw [Matrix.mulVec_mulVec, Matrix.nonsing_inv_mul _ hu, Matrix.one_mulVec]
      rw [← h3, hk, Matrix.mulVec_zero]
    exact sub_eq_zero.1 this
  · cases hf

/-- Without priors, the fit fails exactly if some of the components can be replaced by others on the map: two sources at the same place, a source with no pixel, ... -/
theorem C200_fails [Field K] [LinearOrder K] [IsStrictOrderedRing K] {n : Nat} (d : Data K) (srcs : Fin n → Src K) (free : Bool)
    (h : ∀ i, Ok d (srcs i)) (hs : d.snr.length = d.nx * d.ny) (he' : d.err.length = d.nx * d.ny) (he : ∀ p ∈ d.pixels, d.e p.1 p.2 ≠ 0) :
    fit d srcs none free = .ok none ↔ ∃ v : Comp n free → K, v ≠ 0 ∧ ∀ p ∈ d.pixels, ∑ a, v a * shape d srcs a p = 0 := by
  unfold fit
  rw [C200_system d srcs none free h hs he' he, Res.ok_bind]
  dsimp only
  have e1 : ∀ M : Matrix (Comp n free) (Comp n free) K, ∀ b : Comp n free → K,
      ((Res.ok (if M.det ≠ 0 then some (M⁻¹.mulVec b, M⁻¹) else none)) = .ok none) ↔ M.det = 0 := by
    intro M b
    by_cases hM : M.det = 0
    · simp [hM]
    · simp [hM]
  rw [e1, ← Matrix.exists_mulVec_eq_zero_iff]
  have key : ∀ (v : Comp n free → K) (a : Comp n free), (Matrix.of (gram d srcs none) : Matrix (Comp n free) (Comp n free) K).mulVec v a =
      ∑ p ∈ d.pixels, shape d srcs a p / d.e p.1 p.2 * (∑ b, v b * (shape d srcs b p / d.e p.1 p.2)) := by
    intro v a
    rw [Matrix.mulVec, dotProduct]
    simp only [Matrix.of_apply, gram, add_zero, Finset.sum_mul, Finset.mul_sum]
    rw [Finset.sum_comm]
    exact Finset.sum_congr rfl fun p _ => Finset.sum_congr rfl fun b _ => by ring
  have hdiv : ∀ (v : Comp n free → K) p, ∑ b, v b * (shape d srcs b p / d.e p.1 p.2) = (∑ b, v b * shape d srcs b p) / d.e p.1 p.2 := by
    intro v p
    rw [Finset.sum_div]
    exact Finset.sum_congr rfl fun b _ => by ring
  refine exists_congr fun v => and_congr_right fun _ => ⟨fun hz => ?_, fun hz => ?_⟩
  · have h0 : ∑ p ∈ d.pixels, (∑ b, v b * (shape d srcs b p / d.e p.1 p.2)) ^ 2 = 0 := by
      have : ∑ a, v a * (Matrix.of (gram d srcs none) : Matrix (Comp n free) (Comp n free) K).mulVec v a = 0 := by
        rw [hz]; simp
      rw [← this]
      simp only [key, Finset.mul_sum]
      rw [Finset.sum_comm]
      refine Finset.sum_congr rfl fun p _ => ?_
      rw [sq, Finset.sum_mul]
      refine Finset.sum_congr rfl fun a _ => ?_
      rw [Finset.mul_sum]
      exact Finset.sum_congr rfl fun b _ => by ring
    intro p hp
    have := pow_eq_zero_iff (two_ne_zero) |>.1 ((Finset.sum_eq_zero_iff_of_nonneg fun _ _ => sq_nonneg _).1 h0 p hp)
    rw [hdiv, div_eq_zero_iff] at this
    exact this.resolve_right (he p hp)
  · funext a
    rw [key, Pi.zero_apply]
    apply Finset.sum_eq_zero
    intro p hp
    rw [hdiv, hz p hp, zero_div, mul_zero]

theorem maxOf_ok [LinearOrder K] (l : List K) (m : K) (h : maxOf l = .ok m) : m ∈ l ∧ ∀ a ∈ l, a ≤ m := by
  cases l with
  | nil => cases h
  | cons a l =>
    cases h
    have : ∀ (l : List K) (a : K), (l.foldl max a ∈ a :: l) ∧ a ≤ l.foldl max a ∧ ∀ b ∈ l, b ≤ l.foldl max a := by
      intro l
      induction l with
      | nil => intro a; simp
      | cons b l ih =>
        intro a
        obtain ⟨h1, h2, h3⟩ := ih (max a b)
        refine ⟨?_, (le_max_left a b).trans h2, fun c hc => ?_⟩
        · rcases List.mem_cons.1 h1 with h | h
          · rcases max_choice a b with e | e
            · simp only [List.foldl_cons]; rw [h, e]; simp
            · simp only [List.foldl_cons]; rw [h, e]; simp
          · exact List.mem_cons_of_mem _ (List.mem_cons_of_mem _ h)
        · rcases List.mem_cons.1 hc with rfl | hc
          · exact (le_max_right a c).trans h2
          · exact h3 c hc
    obtain ⟨h1, h2, h3⟩ := this l a
    refine ⟨h1, fun b hb => ?_⟩
    rcases List.mem_cons.1 hb with rfl | hb
    · exact h2
    · exact h3 b hb

/-- The data of the fit: the value and the error of each valid pixel, and zero with 1e5 times the largest error for the others. No error is zero if one of the pixels has a positive
error. It fails if there is no error at all. -/
theorem C200_pixels [Field K] [LinearOrder K] [IsStrictOrderedRing K] (img err : List (Option K)) (hl : img.length = err.length) :
    ((∀ e ∈ err, e = none) → prepare img err = .abort) ∧
    ((∃ e ∈ err, e ≠ none) → ∃ snr er nocov m, prepare img err = .ok (snr, er, nocov) ∧ some m ∈ err ∧ (∀ a, some a ∈ err → a ≤ m) ∧ nocov = 10 ^ 5 * m ∧
      snr.length = img.length ∧ er.length = img.length ∧
      (∀ k (a b : K), img[k]? = some (some a) → err[k]? = some (some b) → b ≠ 0 → snr.getD k 0 * er.getD k 0 = a ∧ er.getD k 0 = b) ∧
      (∀ k, k < img.length → (img[k]? = some none ∨ err[k]? = some none ∨ err[k]? = some (some 0)) → snr.getD k 0 = 0 ∧ er.getD k 0 = nocov) ∧
      (0 < m → ∀ k, k < img.length → er.getD k 0 ≠ 0)) := by
  have hfm : ∀ a, a ∈ err.filterMap id ↔ some a ∈ err := by intro a; simp
  constructor
  · intro h
    have : err.filterMap id = [] := by
      rw [List.eq_nil_iff_forall_not_mem]
      intro a ha
      rw [hfm] at ha
      cases h _ ha
    unfold prepare
    rw [this]
    rfl
  · rintro ⟨e, hem, hen⟩
    cases e with
    | none => exact absurd rfl hen
    | some e =>
      obtain ⟨m, hm⟩ : ∃ m, maxOf (err.filterMap id) = .ok m := by
        cases hc : err.filterMap id with
        | nil => exact absurd ((hfm e).2 hem) (by rw [hc]; simp)
        | cons a l => exact ⟨_, rfl⟩
      obtain ⟨h1, h2⟩ := maxOf_ok _ _ hm
      have hpre : prepare img err = .ok ((List.zipWith (fun a b => match a, b with
          | some a, some b => if b = 0 then ((0 : K), 100000 * m) else (a / b, b)
          | _, _ => (0, 100000 * m)) img err).map Prod.fst, (List.zipWith (fun a b => match a, b with
          | some a, some b => if b = 0 then ((0 : K), 100000 * m) else (a / b, b)
          | _, _ => (0, 100000 * m)) img err).map Prod.snd, 100000 * m) := by
        unfold prepare
        rw [hm, Res.ok_bind]
      have hget : ∀ k (x y : Option K), img[k]? = some x → err[k]? = some y → ∀ f : Option K → Option K → K × K,
          ((List.zipWith f img err).map Prod.fst).getD k 0 = (f x y).1 ∧ ((List.zipWith f img err).map Prod.snd).getD k 0 = (f x y).2 := by
        intro k x y hx hy f
        simp [List.getD_eq_getElem?_getD, List.getElem?_zipWith, hx, hy]
      have hy : ∀ k, k < img.length → ∃ x y, img[k]? = some x ∧ err[k]? = some y := fun k hk =>
        ⟨_, _, List.getElem?_eq_getElem hk, List.getElem?_eq_getElem (hl ▸ hk)⟩
      refine ⟨_, _, _, m, hpre, (hfm m).1 h1, fun a ha => h2 a ((hfm a).2 ha), by norm_num, by simp [hl], by simp [hl], ?_, ?_, ?_⟩
      · intro k a b ha hb hb0
        rw [(hget k _ _ ha hb _).1, (hget k _ _ ha hb _).2]
        simp only [if_neg hb0]
        exact ⟨div_mul_cancel₀ a hb0, trivial⟩
      · intro k hk hc
        obtain ⟨x, y, hx, hy⟩ := hy k hk
        rw [(hget k _ _ hx hy _).1, (hget k _ _ hx hy _).2]
        rw [hx, hy] at hc
        rcases x with - | a <;> rcases y with - | b <;> simp at hc ⊢
        simp [hc]
      · intro hm0 k hk
        obtain ⟨x, y, hx, hy⟩ := hy k hk
        rw [(hget k _ _ hx hy _).2]
        have hn0 : (100000 : K) * m ≠ 0 := mul_ne_zero (by norm_num) hm0.ne'
        rcases x with - | a <;> rcases y with - | b
        · exact hn0
        · exact hn0
        · exact hn0
        · dsimp only
          split
          · exact hn0
          · assumption

/-- With `trim_image`, the pixels outside of the hull of the sources are treated as those that are not valid, unless the hull has less than five pixels. -/
theorem C200_trim [Field K] (nocov : K) (b : List Bool) (d : List K × List K) (h1 : d.1.length = b.length) (h2 : d.2.length = b.length) (k : Nat) (i : Bool) (hi : b[k]? = some i) :
    ((trim nocov (some b) d).1.getD k 0, (trim nocov (some b) d).2.getD k 0) = if 5 ≤ b.count true ∧ i = false then (0, nocov) else (d.1.getD k 0, d.2.getD k 0) := by
  have hk : k < b.length := (List.getElem?_eq_some_iff.1 hi).1
  unfold trim
  dsimp only
  by_cases hc : b.count true < 5
  · rw [if_pos hc, if_neg (by omega)]
  · rw [if_neg hc]
    simp only [List.getD_eq_getElem?_getD, List.getElem?_zipWith, hi, List.getElem?_eq_getElem (h1 ▸ hk), List.getElem?_eq_getElem (h2 ▸ hk)]
    cases i with
    | false => simp [not_lt.1 hc]
    | true => simp

/-! a map of 2 x 3 pixels, with two sources that overlap; the second one is partly off the map -/

/-- the map -/
def mapEx : Data ℚ := ⟨2, 3, [1, 2, 3, 4, 5, 6], [1, 1, 2, 1, 1, 1], 1⟩

/-- the sources -/
def srcEx (i : Fin 2) : Src ℚ := if i = 0 then ⟨0, 1, [0, 1, 0, 1, 2, 1, 0, 1, 0]⟩ else ⟨1, 2, [0, 1, 0, 1, 3, 1, 0, 1, 0]⟩

theorem okEx (i : Fin 2) : Ok mapEx (srcEx i) := by
  fin_cases i <;> exact ⟨rfl, rfl, rfl, by decide, by decide, by decide, by decide⟩

example : (match system mapEx srcEx none true with
    | .ok (a, b) => (a (.inl 0) (.inl 0), a (.inl 0) (.inl 1), a (.inl 1) (.inl 1), a (.inl 1) (.inr ⟨(), rfl⟩), a (.inr ⟨(), rfl⟩) (.inr ⟨(), rfl⟩), b (.inl 1), b (.inr ⟨(), rfl⟩))
    | _ => (0, 0, 0, 0, 0, 0, 0)) = (25 / 4, 5 / 4, 41 / 4, 17 / 4, 21 / 4, 49 / 2, 39 / 2) := by decide +kernel

example : ∀ p ∈ mapEx.pixels, mapEx.e p.1 p.2 ≠ 0 := by decide +kernel

end Verif.ExtractFit
