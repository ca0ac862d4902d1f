import Verif.Astro.Region
import Mathlib.Tactic.Linarith
/-!
# Properties C64 (regions) and C87 (recentring)
-/
namespace Verif.Astro
open Verif

variable {α : Type}

theorem s64_ok {a : Int} (h1 : -2 ^ 63 ≤ a) (h2 : a < 2 ^ 63) : s64 a = .ok a := if_pos ⟨h1, h2⟩

theorem u64_nat {a : Int} {n : Nat} (h : a = n) (hn : n < W64) : u64 a = n := by
  subst h
  unfold u64
  rw [← Int.natCast_mod, Int.toNat_natCast, Nat.mod_eq_of_lt hn]

/-- Spec: `p` is the pair of flat positions, in an image of width `nvy` and in the region starting at `(r0,r1)` of
width `ny`, of a pixel in both. -/
def Overlap (nvx nvy : Nat) (r0 r1 r2 r3 : Int) (p : Nat × Nat) : Prop :=
  ∃ x y : Nat, x < nvx ∧ y < nvy ∧ r0 ≤ x ∧ (x : Int) ≤ r2 ∧ r1 ≤ y ∧ (y : Int) ≤ r3 ∧
    p.1 = x * nvy + y ∧ (p.2 : Int) = (x - r0) * (r3 - r1 + 1) + (y - r1)

/-- the number of pixels of the region and its coordinates fit in `int_t` -/
structure Fits (nvx nvy : Nat) (r0 r1 r2 r3 : Int) : Prop where
  b0 : -2 ^ 62 < r0 ∧ r0 < 2 ^ 62
  b1 : -2 ^ 62 < r1 ∧ r1 < 2 ^ 62
  b2 : -2 ^ 62 < r2 ∧ r2 < 2 ^ 62
  b3 : -2 ^ 62 < r3 ∧ r3 < 2 ^ 62
  img : nvx * nvy < 2 ^ 63
  reg : (r2 - r0 + 1) * (r3 - r1 + 1) < 2 ^ 63

theorem reg_pos {X N x y r : Int} (h1 : 0 ≤ x) (h2 : x < X) (h3 : 0 ≤ y) (h4 : y < N) (h5 : X * N ≤ r) : 0 ≤ x * N + y ∧ x * N + y < r := by
  constructor
  · have := Int.mul_nonneg h1 (by omega : (0 : Int) ≤ N); omega
  · have h : (x + 1) * N ≤ X * N := Int.mul_le_mul_of_nonneg_right (by omega) (by omega)
    have e : (x + 1) * N = x * N + N := by ring
    rw [e] at h
    omega

theorem subregion_spec (nvx nvy : Nat) (r0 r1 r2 r3 : Int) (h : Fits nvx nvy r0 r1 r2 r3) :
    ∃ rv rr, subregion nvx nvy [r0, r1, r2, r3] = .ok (rv, rr) ∧ rv.length = rr.length ∧ (rv.zip rr).Nodup ∧
      (∀ p, p ∈ rv.zip rr ↔ Overlap nvx nvy r0 r1 r2 r3 p) ∧ (rv.zip rr).Pairwise (fun p q => p.1 < q.1) := by
  obtain ⟨b0, b1, b2, b3, him, hrg⟩ := h
  unfold subregion
  simp only
  rw [s64_ok (by omega) (by omega), Res.ok_bind, s64_ok (by omega) (by omega), Res.ok_bind, s64_ok (by omega) (by omega),
    Res.ok_bind, s64_ok (by omega) (by omega), Res.ok_bind]
  by_cases hc : r0 ≥ nvx ∨ r2 < 0 ∨ r0 > r2 ∨ r1 ≥ nvy ∨ r3 < 0 ∨ r1 > r3
  · rw [if_pos hc]
    refine ⟨[], [], rfl, rfl, List.nodup_nil, ?_, List.Pairwise.nil⟩
    intro p
    simp only [List.zip_nil_left, List.not_mem_nil, false_iff]
    rintro ⟨x, y, h1, h2, h3, h4, h5, h6, -⟩
    omega
  · rw [if_neg hc]
    generalize hv0 : (if r0 < 0 then 0 else r0) = v0
    generalize hs0 : (if r0 < 0 then 0 - r0 else 0) = s0
    generalize hv2 : (if r2 ≥ nvx then (nvx : Int) - 1 else r2) = v2
    generalize hv1 : (if r1 < 0 then 0 else r1) = v1
    generalize hs1 : (if r1 < 0 then 0 - r1 else 0) = s1
    generalize hv3 : (if r3 ≥ nvy then (nvy : Int) - 1 else r3) = v3
    have e0 : ¬ (nvx = 0 ∨ nvy = 0) → v0 = s0 + r0 ∧ 0 ≤ v0 ∧ 0 ≤ s0 ∧ (r0 ≤ v0) ∧ v0 < nvx ∧ (v0 = 0 ∨ v0 = r0) := by
      split at hv0 <;> split at hs0 <;> omega
    have e1 : ¬ (nvx = 0 ∨ nvy = 0) → v1 = s1 + r1 ∧ 0 ≤ v1 ∧ 0 ≤ s1 ∧ (r1 ≤ v1) ∧ v1 < nvy ∧ (v1 = 0 ∨ v1 = r1) := by
      split at hv1 <;> split at hs1 <;> omega
    by_cases hz : nvx = 0 ∨ nvy = 0
    · have hnp : (v2 - v0 + 1).toNat * (v3 - v1 + 1).toNat = 0 := by
        rw [Nat.mul_eq_zero]
        rcases hz with rfl | rfl
        · left; split at hv2 <;> split at hv0 <;> simp at * <;> omega
        · right; split at hv3 <;> split at hv1 <;> simp at * <;> omega
      rw [hnp]
      refine ⟨[], [], rfl, rfl, List.nodup_nil, ?_, List.Pairwise.nil⟩
      intro p
      simp only [List.zip_nil_left, List.not_mem_nil, false_iff]
      rintro ⟨x, y, h1, h2, -⟩
      omega
    have e0 := e0 hz
    have e1 := e1 hz
    have e2 : v2 < nvx ∧ v2 ≤ r2 ∧ v0 ≤ v2 ∧ (v2 = nvx - 1 ∨ v2 = r2) := by
      split at hv2 <;> omega
    have e3 : v3 < nvy ∧ v3 ≤ r3 ∧ v1 ≤ v3 ∧ (v3 = nvy - 1 ∨ v3 = r3) := by
      split at hv3 <;> omega
    clear hv0 hs0 hv1 hs1 hv2 hv3
    obtain ⟨nn, hnn⟩ : ∃ n : Nat, v3 - v1 + 1 = n := ⟨(v3 - v1 + 1).toNat, by omega⟩
    obtain ⟨mm, hmm⟩ : ∃ n : Nat, v2 - v0 + 1 = n := ⟨(v2 - v0 + 1).toNat, by omega⟩
    obtain ⟨a0, ha0⟩ : ∃ n : Nat, v0 = n := ⟨v0.toNat, by omega⟩
    obtain ⟨a1, ha1⟩ : ∃ n : Nat, v1 = n := ⟨v1.toNat, by omega⟩
    obtain ⟨c0, hc0⟩ : ∃ n : Nat, s0 = n := ⟨s0.toNat, by omega⟩
    obtain ⟨c1, hc1⟩ : ∃ n : Nat, s1 = n := ⟨s1.toNat, by omega⟩
    obtain ⟨N, hN⟩ : ∃ n : Nat, r3 - r1 + 1 = n := ⟨(r3 - r1 + 1).toNat, by omega⟩
    have hN' : r3 - r1 + 1 = (N : Int) := hN
    rw [hnn, hmm, Int.toNat_natCast, Int.toNat_natCast]
    have hnn0 : 0 < nn := by omega
    -- the two maps, in terms of the coordinates
    have hrv : ∀ i, i < mm * nn → u64 (((i % nn : Nat) : Int) + v1 + (((i / nn : Nat) : Int) + v0) * nvy) = (i / nn + a0) * nvy + (i % nn + a1) := by
      intro i hi
      have hq : i / nn < mm := by rw [Nat.div_lt_iff_lt_mul hnn0]; exact hi
      have hr := Nat.mod_lt i hnn0
      apply u64_nat
      · rw [ha0, ha1]; push_cast; ring
      · have := flat_lt (x := i / nn + a0) (y := i % nn + a1) (nx := nvx) (ny := nvy) (by omega) (by omega)
        unfold W64
        omega
    have hrr : ∀ i, i < mm * nn → u64 (((i % nn : Nat) : Int) + s1 + (((i / nn : Nat) : Int) + s0) * (r3 - r1 + 1)) = (i / nn + c0) * N + (i % nn + c1) := by
      intro i hi
      have hq : i / nn < mm := by rw [Nat.div_lt_iff_lt_mul hnn0]; exact hi
      have hr := Nat.mod_lt i hnn0
      apply u64_nat
      · rw [hc0, hc1, hN]; push_cast; ring
      · obtain ⟨M, hM⟩ : ∃ n : Nat, r2 - r0 + 1 = n := ⟨(r2 - r0 + 1).toNat, by omega⟩
        have := flat_lt (x := i / nn + c0) (y := i % nn + c1) (nx := M) (ny := N) (by omega) (by omega)
        rw [hM, hN] at hrg
        have h2 : M * N < 2 ^ 63 := by exact_mod_cast hrg
        unfold W64
        omega
    rw [List.map_congr_left (g := fun i => (i / nn + a0) * nvy + (i % nn + a1)) fun i hi => hrv i (List.mem_range.1 hi),
      List.map_congr_left (g := fun i => (i / nn + c0) * N + (i % nn + c1)) fun i hi => hrr i (List.mem_range.1 hi)]
    refine ⟨_, _, rfl, by simp, ?_⟩
    rw [List.zip_map', ← and_assoc]
    have hpw : ((List.range (mm * nn)).map fun i => ((i / nn + a0) * nvy + (i % nn + a1), (i / nn + c0) * N + (i % nn + c1))).Pairwise
        (fun p q => p.1 < q.1) := by
      rw [List.pairwise_map]
      refine List.pairwise_lt_range.imp_of_mem ?_
      intro i j hi hj hij
      simp only
      have hri := Nat.mod_lt i hnn0
      have hrj := Nat.mod_lt j hnn0
      have hdi := Nat.div_add_mod i nn
      have hdj := Nat.div_add_mod j nn
      rcases Nat.lt_trichotomy (i / nn) (j / nn) with hlt | heq | hgt
      · have : (i / nn + a0 + 1) * nvy ≤ (j / nn + a0) * nvy := Nat.mul_le_mul_right _ (by omega)
        rw [Nat.add_mul (i / nn + a0)] at this
        omega
      · rw [heq] at hdi ⊢; omega
      · exfalso
        have := Nat.div_le_div_right (c := nn) (Nat.le_of_lt hij)
        omega
    refine ⟨⟨?_, ?_⟩, hpw⟩
    · refine hpw.imp ?_
      rintro a b h rfl
      exact absurd h (by omega)
    · intro p
      rw [List.mem_map]
      constructor
      · rintro ⟨i, hi, rfl⟩
        have hi := List.mem_range.1 hi
        have hq : i / nn < mm := by rw [Nat.div_lt_iff_lt_mul hnn0]; exact hi
        have hr := Nat.mod_lt i hnn0
        generalize i / nn = q at hq ⊢
        generalize i % nn = r at hr ⊢
        refine ⟨q + a0, r + a1, by omega, by omega, by omega, by omega, by omega, by omega, rfl, ?_⟩
        simp only
        rw [hN']
        push_cast
        have h1 : ((a0 : Int) - r0) = c0 := by omega
        have h2 : ((a1 : Int) - r1) = c1 := by omega
        rw [← h1, ← h2]
        ring
      · rintro ⟨x, y, h1, h2, h3, h4, h5, h6, h7, h8⟩
        have hlt : y - a1 < nn := by omega
        refine ⟨(x - a0) * nn + (y - a1), List.mem_range.2 (flat_lt (by omega) hlt), ?_⟩
        have hd : ((x - a0) * nn + (y - a1)) / nn = x - a0 := by
          rw [Nat.mul_comm, Nat.mul_add_div hnn0, Nat.div_eq_of_lt hlt]; omega
        have hm : ((x - a0) * nn + (y - a1)) % nn = y - a1 := by
          rw [Nat.mul_comm, Nat.mul_add_mod, Nat.mod_eq_of_lt hlt]
        rw [hd, hm]
        apply Prod.ext
        · simp only
          rw [h7]
          congr 2 <;> omega
        · simp only
          have : (((x - a0 + c0) * N + (y - a1 + c1) : Nat) : Int) = (p.2 : Int) := by
            rw [h8, hN']
            push_cast
            rw [Int.ofNat_sub (by omega), Int.ofNat_sub (by omega)]
            have h1 : ((a0 : Int) - r0) = c0 := by omega
            have h2 : ((a1 : Int) - r1) = c1 := by omega
            rw [← h1, ← h2]
            ring
          exact_mod_cast this

/-- C64: the two index vectors list exactly the pixels that are both in the image and in the region, each once,
with their flat positions in the image and in the region, in increasing order. -/
theorem C64_indices (nvx nvy : Nat) (r0 r1 r2 r3 : Int) (h : Fits nvx nvy r0 r1 r2 r3) :
    ∃ rv rr, subregion nvx nvy [r0, r1, r2, r3] = .ok (rv, rr) ∧ rv.length = rr.length ∧ (rv.zip rr).Nodup ∧
      (∀ p, p ∈ rv.zip rr ↔ Overlap nvx nvy r0 r1 r2 r3 p) ∧ (rv.zip rr).Pairwise (fun p q => p.1 < q.1) :=
  subregion_spec nvx nvy r0 r1 r2 r3 h

/-- C64: all indices are valid in the image and in the region. -/
theorem C64_bounds (nvx nvy : Nat) (r0 r1 r2 r3 : Int) (p : Nat × Nat) (h : Overlap nvx nvy r0 r1 r2 r3 p) :
    p.1 < nvx * nvy ∧ (p.2 : Int) < (r2 - r0 + 1) * (r3 - r1 + 1) := by
  obtain ⟨x, y, h1, h2, h3, h4, h5, h6, h7, h8⟩ := h
  refine ⟨by rw [h7]; exact flat_lt h1 h2, ?_⟩
  rw [h8]
  exact (reg_pos (X := r2 - r0 + 1) (by omega) (by omega) (by omega) (by omega) (le_refl _)).2

/-- C64: a region that does not have four components is refused. -/
theorem C64_size (nvx nvy : Nat) (reg : List Int) (h : reg.length ≠ 4) : subregion nvx nvy reg = .abort := by
  match reg with
  | [] => rfl
  | [_] => rfl
  | [_, _] => rfl
  | [_, _, _] => rfl
  | [_, _, _, _] => simp at h
  | _ :: _ :: _ :: _ :: _ :: _ => rfl

theorem copyIds_spec (src : List α) (ps : List (Nat × Nat)) (dst : List α) (h1 : ∀ p ∈ ps, p.1 < dst.length ∧ p.2 < src.length)
    (hn : ps.Pairwise (fun p q => p.1 ≠ q.1)) :
    ∃ r, copyIds dst src ps = .ok r ∧ r.length = dst.length ∧
      (∀ p ∈ ps, r[p.1]? = src[p.2]?) ∧ ∀ i, (∀ p ∈ ps, p.1 ≠ i) → r[i]? = dst[i]? := by
  induction ps generalizing dst with
  | nil => exact ⟨dst, rfl, rfl, by simp, fun _ _ => rfl⟩
  | cons p ps ih =>
    obtain ⟨di, si⟩ := p
    have hp := h1 (di, si) (by simp)
    rw [List.pairwise_cons] at hn
    obtain ⟨r, g1, g2, g3, g4⟩ := ih (dst.set di src[si]) (fun q hq => by
      have := h1 q (by simp [hq]); simpa using this) hn.2
    refine ⟨r, ?_, by simpa using g2, ?_, ?_⟩
    · simp only [copyIds]
      rw [Res.rd_lt hp.2, Res.ok_bind, if_pos hp.1, g1]
    · intro q hq
      rcases List.mem_cons.1 hq with rfl | hq
      · simp only
        rw [g4 di fun q hq => (hn.1 q hq).symm, List.getElem?_set_self hp.1, List.getElem?_eq_getElem hp.2]
      · exact g3 q hq
    · intro i hi
      rw [g4 i fun q hq => hi q (by simp [hq]), List.getElem?_set_ne (hi (di, si) (by simp))]

theorem zip_swap {β : Type} (l : List α) (m : List β) : l.zip m = (m.zip l).map Prod.swap := by
  induction l generalizing m with
  | nil => simp
  | cons a l ih => cases m with
    | nil => rfl
    | cons b m => simp [ih]

/-- the copy of the overlap into the region -/
theorem region_copy (v : Img α) (r0 r1 r2 r3 : Int) (nx ny : Nat) (d : α) (hv : v.WF) (hnx : r2 - r0 + 1 = nx) (hny : r3 - r1 + 1 = ny)
    (h : Fits v.nx v.ny r0 r1 r2 r3) :
    ∃ rv rr px, subregion v.nx v.ny [r0, r1, r2, r3] = .ok (rv, rr) ∧
      copyIds (Img.fill nx ny d).px v.px (rr.zip rv) = .ok px ∧ (⟨nx, ny, px⟩ : Img α).WF ∧
      ∀ x y : Nat, x < nx → y < ny → (⟨nx, ny, px⟩ : Img α).at x y =
        if 0 ≤ r0 + x ∧ r0 + x < v.nx ∧ 0 ≤ r1 + y ∧ r1 + y < v.ny then v.at (r0 + x).toNat (r1 + y).toNat else some d := by
  obtain ⟨rv, rr, g1, g2, g3, g4, g5⟩ := subregion_spec v.nx v.ny r0 r1 r2 r3 h
  have hfl : (Img.fill nx ny d).px.length = nx * ny := by simp [Img.fill]
  have key : ∀ p, p ∈ rr.zip rv ↔ Overlap v.nx v.ny r0 r1 r2 r3 (p.2, p.1) := by
    intro p
    rw [zip_swap, ← g4 (p.2, p.1), List.mem_map]
    constructor
    · rintro ⟨q, hq, rfl⟩; exact hq
    · intro hq; exact ⟨_, hq, rfl⟩
  obtain ⟨px, k1, k2, k3, k4⟩ := copyIds_spec v.px (rr.zip rv) (Img.fill nx ny d).px (by
    intro p hp
    have := C64_bounds _ _ _ _ _ _ _ ((key p).1 hp)
    rw [hnx, hny] at this
    rw [hfl, hv]
    refine ⟨?_, this.1⟩
    exact_mod_cast this.2) (by
    rw [zip_swap, List.pairwise_map]
    refine g3.imp_of_mem ?_
    intro p q hp hq hne he
    apply hne
    obtain ⟨x, y, h1, h2, h3, h4, h5, h6, h7, h8⟩ := (g4 p).1 hp
    obtain ⟨x', y', h1', h2', h3', h4', h5', h6', h7', h8'⟩ := (g4 q).1 hq
    obtain ⟨a, ha⟩ : ∃ n : Nat, (x : Int) - r0 = n := ⟨((x : Int) - r0).toNat, by omega⟩
    obtain ⟨b, hb⟩ : ∃ n : Nat, (y : Int) - r1 = n := ⟨((y : Int) - r1).toNat, by omega⟩
    obtain ⟨a', ha'⟩ : ∃ n : Nat, (x' : Int) - r0 = n := ⟨((x' : Int) - r0).toNat, by omega⟩
    obtain ⟨b', hb'⟩ : ∃ n : Nat, (y' : Int) - r1 = n := ⟨((y' : Int) - r1).toNat, by omega⟩
    rw [ha, hb, hny] at h8
    rw [ha', hb', hny] at h8'
    have e : a * ny + b = a' * ny + b' := by
      have : ((a * ny + b : Nat) : Int) = ((a' * ny + b' : Nat) : Int) := by
        push_cast
        rw [← h8, ← h8']
        simpa using he
      exact_mod_cast this
    have := flat_inj (by omega) (by omega) e
    have hxx : x = x' := by omega
    have hyy : y = y' := by omega
    subst hxx hyy
    exact Prod.ext (by rw [h7, h7']) he)
  refine ⟨rv, rr, px, g1, k1, by unfold Img.WF; simp only; omega, ?_⟩
  intro x y hx hy
  unfold Img.at
  simp only
  rw [if_pos ⟨hx, hy⟩]
  split
  · rename_i hin
    have hmem : (x * ny + y, (r0 + x).toNat * v.ny + (r1 + y).toNat) ∈ rr.zip rv := by
      rw [key]
      refine ⟨(r0 + x).toNat, (r1 + y).toNat, by omega, by omega, by omega, by omega, by omega, by omega, rfl, ?_⟩
      simp only
      rw [hny]
      push_cast
      have h1 : (((r0 + x).toNat : Nat) : Int) - r0 = x := by omega
      have h2 : (((r1 + y).toNat : Nat) : Int) - r1 = y := by omega
      rw [h1, h2]
    rw [k3 _ hmem, if_pos (by omega)]
  · rename_i hout
    rw [k4]
    · simp [Img.fill, flat_lt hx hy]
    · rintro ⟨p1, p2⟩ hp he
      simp only at he
      subst he
      obtain ⟨x', y', h1, h2, h3, h4, h5, h6, h7, h8⟩ := (key _).1 hp
      simp only at h8
      obtain ⟨a, ha⟩ : ∃ n : Nat, (x' : Int) - r0 = n := ⟨((x' : Int) - r0).toNat, by omega⟩
      obtain ⟨b, hb⟩ : ∃ n : Nat, (y' : Int) - r1 = n := ⟨((y' : Int) - r1).toNat, by omega⟩
      rw [ha, hb, hny] at h8
      have e : x * ny + y = a * ny + b := by exact_mod_cast h8
      have := flat_inj hy (by omega) e
      omega

/-- C64 (image form), for regions that are not inverted: the result has the size of the region and its pixels are those
of the image where it exists and the default value elsewhere. -/
theorem C64_image_partial (v : Img α) (r0 r1 r2 r3 : Int) (d : α) (hv : v.WF) (h : Fits v.nx v.ny r0 r1 r2 r3) (hx : r0 ≤ r2 + 1) (hy : r1 ≤ r3 + 1) :
    ∃ w, subregionImg v [r0, r1, r2, r3] d = .ok w ∧ w.WF ∧ (w.nx : Int) = r2 - r0 + 1 ∧ (w.ny : Int) = r3 - r1 + 1 ∧
      ∀ x y : Nat, x < w.nx → y < w.ny → w.at x y =
        if 0 ≤ r0 + x ∧ r0 + x < v.nx ∧ 0 ≤ r1 + y ∧ r1 + y < v.ny then v.at (r0 + x).toNat (r1 + y).toNat else some d := by
  obtain ⟨nx, hnx⟩ : ∃ n : Nat, r2 - r0 + 1 = n := ⟨(r2 - r0 + 1).toNat, by omega⟩
  obtain ⟨ny, hny⟩ : ∃ n : Nat, r3 - r1 + 1 = n := ⟨(r3 - r1 + 1).toNat, by omega⟩
  obtain ⟨rv, rr, px, g1, g2, g3, g4⟩ := region_copy v r0 r1 r2 r3 nx ny d hv hnx hny h
  obtain ⟨b0, b1, b2, b3, him, hrg⟩ := h
  have hsz : nx * ny < 2 ^ 63 := by
    rw [hnx, hny] at hrg; exact_mod_cast hrg
  refine ⟨⟨nx, ny, px⟩, ?_, g3, hnx.symm, hny.symm, g4⟩
  unfold subregionImg
  rw [g1, Res.ok_bind]
  simp only [replicateS]
  rw [hnx, hny, u64_nat rfl (by unfold W64; omega), u64_nat rfl (by unfold W64; omega), Nat.mod_eq_of_lt (by unfold W64; omega), if_neg (by omega), Res.ok_bind]
  have : (Img.fill nx ny d).px = List.replicate (nx * ny) d := rfl
  rw [← this, g2, Res.ok_bind]

/-- C64 (image form) is false for regions inverted in both directions: the result should be empty, but it claims to
be an image of 2^64-1 by 2^64-1 pixels holding one element. -/
theorem C64_image_refuted : subregionImg (⟨1, 1, [7]⟩ : Img Nat) [2, 2, 0, 0] 0 = .ok ⟨2 ^ 64 - 1, 2 ^ 64 - 1, [0]⟩ ∧
    ¬ (⟨2 ^ 64 - 1, 2 ^ 64 - 1, [0]⟩ : Img Nat).WF := by decide

/-- C64 is false for regions whose size does not fit in `int_t`: it cannot be computed. -/
theorem C64_overflow_refuted : subregion 1 1 [-2 ^ 63, 0, 0, 0] = .ub := by decide

example : subregionImg ⟨2, 2, [1, 2, 3, 4]⟩ [-1, 0, 0, 1] 9 = .ok ⟨2, 2, [9, 9, 1, 2]⟩ := by decide
example : subregion 2 2 [-1, 0, 0, 1] = .ok ([0, 1], [2, 3]) := by decide
example : Fits 2 2 (-1) 0 0 1 := ⟨by decide, by decide, by decide, by decide, by decide, by decide⟩

/-- C87: `recenter` to given dimensions returns an image of these dimensions whose middle is the pixel `(cy,cx)` of
the original, with the default value where the original has no pixel. -/
theorem C87_recenter_size (v : Img α) (cy cx : Int) (d0 d1 : Nat) (d : α) (hv : v.WF) (hs : v.nx * v.ny < 2 ^ 63)
    (hc : -2 ^ 61 < cy ∧ cy < 2 ^ 61 ∧ -2 ^ 61 < cx ∧ cx < 2 ^ 61) (hd : d0 < 2 ^ 61 ∧ d1 < 2 ^ 61) (hdd : d0 * d1 < 2 ^ 63) :
    ∃ w, recenter v cy cx d0 d1 d = .ok w ∧ w.WF ∧ w.nx = d0 ∧ w.ny = d1 ∧ ∀ y x : Nat, y < d0 → x < d1 →
      w.at y x = if 0 ≤ cy + (y : Int) - (d0 / 2 : Nat) ∧ cy + (y : Int) - (d0 / 2 : Nat) < v.nx ∧
          0 ≤ cx + (x : Int) - (d1 / 2 : Nat) ∧ cx + (x : Int) - (d1 / 2 : Nat) < v.ny
        then v.at (cy + (y : Int) - (d0 / 2 : Nat)).toNat (cx + (x : Int) - (d1 / 2 : Nat)).toNat else some d := by
  have hnx : (cy - ((d0 / 2 : Nat) : Int) + d0 - 1) - (cy - ((d0 / 2 : Nat) : Int)) + 1 = d0 := by ring
  have hny : (cx - ((d1 / 2 : Nat) : Int) + d1 - 1) - (cx - ((d1 / 2 : Nat) : Int)) + 1 = d1 := by ring
  obtain ⟨rv, rr, px, g1, g2, g3, g4⟩ := region_copy v _ _ _ _ d0 d1 d hv hnx hny
    ⟨by omega, by omega, by omega, by omega, hs, by rw [hnx, hny]; exact_mod_cast hdd⟩
  refine ⟨⟨d0, d1, px⟩, ?_, g3, rfl, rfl, ?_⟩
  · unfold recenter
    rw [s64_ok (by omega) (by omega), Res.ok_bind, s64_ok (by omega) (by omega), Res.ok_bind, s64_ok (by omega) (by omega),
      Res.ok_bind, s64_ok (by omega) (by omega), Res.ok_bind, g1, Res.ok_bind]
    simp only
    rw [g2, Res.ok_bind]
  · intro y x hy hx
    rw [g4 y x hy hx]
    have e1 : cy - ((d0 / 2 : Nat) : Int) + y = cy + y - ((d0 / 2 : Nat) : Int) := by ring
    have e2 : cx - ((d1 / 2 : Nat) : Int) + x = cx + x - ((d1 / 2 : Nat) : Int) := by ring
    rw [e1, e2]

example : recenter ⟨2, 2, [1, 2, 3, 4]⟩ 0 0 3 2 9 = .ok ⟨3, 2, [9, 9, 9, 1, 9, 3]⟩ := by decide

end Verif.Astro
