import Verif.Basic
import Verif.Math.Hist
import Mathlib.Data.List.Forall2
import Mathlib.Tactic.Linarith
import Mathlib.Tactic.FieldSimp
import Mathlib.Tactic.NormNum
/-!
# The search of the best temperatures in `pixfit-gfit` (C195)

`f T` is the chi2 of the fit for the temperatures `T` of the sources of a group (`dofit_wrap`, `none` if the fit fails: not a number). `none` for the best chi2 is infinity.
-/
namespace Verif.GfitSearch
open Verif Verif.Math

variable {K : Type} [Field K] [LinearOrder K] [IsStrictOrderedRing K]

/-- all lists of `m` indices below `n`, in the order of `increment_index_list` (`pixfit-gfit.cpp:776`; C23) -/
def tuples : Nat → Nat → List (List Nat)
  | 0, _ => [[]]
  | m + 1, n => (List.range n).flatMap fun i => (tuples m n).map (i :: ·)

/-- `bchi2`, `lib_id` and `tdust` -/
structure Best (K : Type) where
  chi2 : Option K
  lib : List Nat
  temps : List K
deriving DecidableEq

/-- `chi2 < bchi2` (`pixfit-gfit.cpp:709`) -/
def less : Option K → Option K → Bool
  | none, _ => false
  | some _, none => true
  | some a, some b => a < b

/-- the temperatures (`pixfit-gfit.cpp:758`) -/
def tempsOf (grid : List (List K)) (t : List Nat) : List K := List.zipWith (fun g i => g.getD i 0) grid t

/-- the limits on the temperatures (`pixfit-gfit.cpp:761-766`) -/
def bad (lo up T : List K) : Bool := (T.zip (lo.zip up)).any fun p => p.1 < p.2.1 || p.2.2 < p.1

/-- one combination (`pixfit-gfit.cpp:757-769`, `707-722`) -/
def tryOne (f : List K → Option K) (lo up : List K) (grid : List (List K)) (best : Best K) (t : List Nat) : Best K :=
  if bad lo up (tempsOf grid t) then best
  else if less (f (tempsOf grid t)) best.chi2 then ⟨f (tempsOf grid t), t, tempsOf grid t⟩ else best

/-- `doloop` (`pixfit-gfit.cpp:755-778`) -/
def scan (f : List K → Option K) (lo up : List K) (n : Nat) (grid : List (List K)) (best : Best K) : Best K :=
  (tuples grid.length n).foldl (tryOne f lo up grid) best

/-- the next grid (`pixfit-gfit.cpp:792-796`); `lib_id` is empty if no fit was kept, and the access stops the program -/
def refine (n : Nat) (grid : List (List K)) (lib : List Nat) : Res (List (List K)) :=
  if lib = [] then .abort
  else .ok (List.zipWith (fun g i => rgen (g.getD (i - 1) 0) (g.getD (if i < n - 1 then i + 1 else n - 1) 0) n) grid lib)

/-- all rounds (`pixfit-gfit.cpp:780-801`): the best fit and the grids (`chi2_tdust_x`); `r` rounds after the first -/
def search (f : List K → Option K) (lo up : List K) (n : Nat) : Nat → List (List K) → Best K → Res (Best K × List (List (List K)))
  | 0, grid, best => .ok (scan f lo up n grid best, [grid])
  | r + 1, grid, best => do
    let grid' ← refine n grid (scan f lo up n grid best).lib
    let (b, gs) ← search f lo up n r grid' (scan f lo up n grid best)
    .ok (b, grid :: gs)

/-- the first grid (`pixfit-gfit.cpp:742-745`) for `m` sources -/
def firstGrid (m n : Nat) (t0 t1 : K) : List (List K) := List.replicate m (rgen t0 t1 n)

/-- the search from the first grid -/
def run (f : List K → Option K) (lo up : List K) (m n r : Nat) (t0 t1 : K) : Res (Best K × List (List (List K))) :=
  search f lo up n r (firstGrid m n t0 t1) ⟨none, [], []⟩

/-- `v[i]`: outside the vector the program stops -/
def get {α : Type} (l : List α) (i : Nat) : Res α := match l[i]? with
  | some a => .ok a
  | none => .abort

/-- the limits of the sources of a group (`pixfit-gfit.cpp:333-334, 649, 763`): the limits of the sources of the fit, at the positions of the sources in the whole catalogue -/
def limitsOf (tl : List K) (gifit sids : List Nat) : Res (List K) := do
  let red ← gifit.mapM (get tl)
  let gids ← sids.mapM (get gifit)
  gids.mapM (get red)

/-- the chi2 of a temperature in a round, as written (`pixfit-gfit.cpp:778, 802`), before the division by the degrees of freedom: `br` the best chi2 after the round, `b` the
best chi2 -/
def reported (c br b : K) : K := c / br * b

/-- the loop on f_PAH (`pixfit-gfit.cpp:686-705`) with at most `fuel` fits; `fit fixed fpah`: new f_PAH (`none`: not a number) and the chi2. `none` if not finished. -/
def pahLoop (fit : List Bool → List (Option K) → List (Option K) × Option K) (mx : K) : Nat → List Bool → List (Option K) → Option (List Bool × List (Option K) × Option K)
  | 0, _, _ => none
  | fuel + 1, fixed, fpah =>
    let wild : Option K → Bool := fun v => match v with
      | none => false
      | some v => v < 0 || mx < v
    let r := fit fixed fpah
    if r.1.any wild then pahLoop fit mx fuel (List.zipWith (fun b v => b || wild v) fixed r.1) (r.1.map fun v => if wild v then some 0 else v)
    else some (fixed, r)

/-! ### Specification -/

/-- a point of a grid -/
def OnGrid (grid : List (List K)) (T : List K) : Prop := List.Forall₂ (fun x g => x ∈ g) T grid

/-- within the limits of each source -/
def Within (lo up T : List K) : Prop := ∀ (j : Nat) x a b, T[j]? = some x → lo[j]? = some a → up[j]? = some b → a ≤ x ∧ x ≤ b

/-! ### Helpers -/

theorem mem_tuples {m n : Nat} {t : List Nat} : t ∈ tuples m n ↔ t.length = m ∧ ∀ i ∈ t, i < n := by
  induction m generalizing t with
  | zero =>
    simp only [tuples, List.mem_singleton, List.length_eq_zero_iff]
    exact ⟨fun h => ⟨h, by simp [h]⟩, fun h => h.1⟩
  | succ m ih =>
    unfold tuples
    rw [List.mem_flatMap]
    constructor
    · rintro ⟨i, hi, h⟩
      obtain ⟨t', ht, rfl⟩ := List.mem_map.1 h
      obtain ⟨h1, h2⟩ := ih.1 ht
      refine ⟨by simp [h1], fun j hj => ?_⟩
      rcases List.mem_cons.1 hj with rfl | hj
      exacts [List.mem_range.1 hi, h2 j hj]
    · rintro ⟨h1, h2⟩
      cases t with
      | nil => simp at h1
      | cons i t =>
        exact ⟨i, List.mem_range.2 (h2 i (by simp)), List.mem_map.2 ⟨t, ih.2 ⟨by simpa using h1, fun j hj => h2 j (by simp [hj])⟩, rfl⟩⟩

theorem bad_iff {lo up T : List K} : bad lo up T = false ↔ Within lo up T := by
  unfold bad Within
  rw [List.any_eq_false]
  constructor
  · intro h j x a b hx ha hb
    have := h (x, (a, b)) (List.mem_of_getElem? (i := j) (by rw [List.getElem?_zip_eq_some]; exact ⟨hx, by rw [List.getElem?_zip_eq_some]; exact ⟨ha, hb⟩⟩))
    simpa using this
  · intro h p hp
    obtain ⟨j, hj⟩ := List.mem_iff_getElem?.1 hp
    rw [List.getElem?_zip_eq_some] at hj
    obtain ⟨h1, h2⟩ := hj
    rw [List.getElem?_zip_eq_some] at h2
    have := h j p.1 p.2.1 p.2.2 h1 h2.1 h2.2
    simpa using this

/-- grids with `n` values for each source -/
def Full (n : Nat) (grid : List (List K)) : Prop := ∀ g ∈ grid, g.length = n

theorem onGrid_iff {n : Nat} {grid : List (List K)} (hf : Full n grid) {T : List K} : OnGrid grid T ↔ ∃ t ∈ tuples grid.length n, tempsOf grid t = T := by
  induction grid generalizing T with
  | nil =>
    constructor
    · intro h; cases h; exact ⟨[], by simp [tuples], rfl⟩
    · rintro ⟨t, -, rfl⟩; exact .nil
  | cons g grid ih =>
    have hg := hf g (by simp)
    have ih := fun {T} => ih (T := T) (fun x hx => hf x (by simp [hx]))
    constructor
    · intro h
      cases h with
      | cons h1 h2 =>
        obtain ⟨t, ht, e⟩ := ih.1 h2
        obtain ⟨i, hi, ei⟩ := List.getElem_of_mem h1
        obtain ⟨t1, t2⟩ := mem_tuples.1 ht
        refine ⟨i :: t, mem_tuples.2 ⟨by simp [t1], ?_⟩, ?_⟩
        · intro j hj
          rcases List.mem_cons.1 hj with rfl | hj
          · omega
          · exact t2 j hj
        · show g.getD i 0 :: tempsOf grid t = _
          rw [e, List.getD_eq_getElem?_getD, List.getElem?_eq_getElem hi, Option.getD_some, ei]
    · rintro ⟨t, ht, rfl⟩
      obtain ⟨t1, t2⟩ := mem_tuples.1 ht
      cases t with
      | nil => simp at t1
      | cons i t =>
        refine .cons ?_ (ih.2 ⟨t, mem_tuples.2 ⟨by simpa using t1, fun j hj => t2 j (by simp [hj])⟩, rfl⟩)
        have hi : i < g.length := by rw [hg]; exact t2 i (by simp)
        show g.getD i 0 ∈ g
        rw [List.getD_eq_getElem?_getD, List.getElem?_eq_getElem hi, Option.getD_some]
        exact List.getElem_mem hi

/-- what the best fit is, for a set of points -/
def IsBest (f : List K → Option K) (P : List K → Prop) (b : Best K) : Prop :=
  (∀ T c, P T → f T = some c → ∃ c0, b.chi2 = some c0 ∧ c0 ≤ c) ∧ ∀ c0, b.chi2 = some c0 → P b.temps ∧ f b.temps = some c0

theorem tryOne_best (f : List K → Option K) (lo up : List K) (grid : List (List K)) (P : List K → Prop) (b : Best K) (h : IsBest f P b) (t : List Nat) :
    IsBest f (fun T => P T ∨ (Within lo up T ∧ tempsOf grid t = T)) (tryOne f lo up grid b t) := by
  unfold tryOne
  cases hb : bad lo up (tempsOf grid t) with
  | true =>
    rw [if_pos rfl]
    refine ⟨fun T c hT hc => ?_, fun c0 h0 => ⟨Or.inl (h.2 c0 h0).1, (h.2 c0 h0).2⟩⟩
    rcases hT with hT | ⟨hw, rfl⟩
    · exact h.1 T c hT hc
    · rw [← bad_iff, hb] at hw; cases hw
  | false =>
    rw [if_neg (by simp)]
    have hw := bad_iff.1 hb
    cases hl : less (f (tempsOf grid t)) b.chi2 with
    | false =>
      rw [if_neg (by simp)]
      refine ⟨fun T c hT hc => ?_, fun c0 h0 => ⟨Or.inl (h.2 c0 h0).1, (h.2 c0 h0).2⟩⟩
      rcases hT with hT | ⟨-, rfl⟩
      · exact h.1 T c hT hc
      · rw [hc] at hl
        cases e : b.chi2 with
        | none => rw [e] at hl; simp [less] at hl
        | some c0 =>
          rw [e] at hl
          exact ⟨c0, rfl, by simpa [less] using hl⟩
    | true =>
      rw [if_pos rfl]
      cases hc : f (tempsOf grid t) with
      | none => rw [hc] at hl; simp [less] at hl
      | some c1 =>
        rw [hc] at hl
        refine ⟨fun T c hT hcT => ⟨c1, rfl, ?_⟩, fun c0 h0 => ⟨Or.inr ⟨hw, rfl⟩, ?_⟩⟩
        · rcases hT with hT | ⟨-, rfl⟩
          · obtain ⟨c0, e, hle⟩ := h.1 T c hT hcT
            rw [e] at hl
            have : c1 < c0 := by simpa [less] using hl
            linarith
          · rw [hc] at hcT; exact (Option.some.inj hcT).le
        · rw [← h0]; exact hc

theorem scan_best (f : List K → Option K) (lo up : List K) (n : Nat) (grid : List (List K)) (hf : Full n grid) (P : List K → Prop) (b : Best K) (h : IsBest f P b) :
    IsBest f (fun T => P T ∨ (Within lo up T ∧ OnGrid grid T)) (scan f lo up n grid b) := by
  unfold scan
  have key : ∀ (ts : List (List Nat)) (P : List K → Prop) (b : Best K), IsBest f P b →
      IsBest f (fun T => P T ∨ (Within lo up T ∧ ∃ t ∈ ts, tempsOf grid t = T)) (ts.foldl (tryOne f lo up grid) b) := by
    intro ts
    induction ts with
    | nil => intro P b h; simpa using h
    | cons t ts ih =>
      intro P b h
      have := ih _ _ (tryOne_best f lo up grid P b h t)
      rw [List.foldl_cons]
      have e : (fun T => (P T ∨ (Within lo up T ∧ tempsOf grid t = T)) ∨ (Within lo up T ∧ ∃ t ∈ ts, tempsOf grid t = T)) =
          (fun T => P T ∨ (Within lo up T ∧ ∃ t' ∈ t :: ts, tempsOf grid t' = T)) := by
        funext T
        simp only [List.mem_cons, exists_eq_or_imp, eq_iff_iff]
        tauto
      rwa [e] at this
  have := key (tuples grid.length n) P b h
  have e : (fun T => P T ∨ (Within lo up T ∧ ∃ t ∈ tuples grid.length n, tempsOf grid t = T)) = (fun T => P T ∨ (Within lo up T ∧ OnGrid grid T)) := by
    funext T
    rw [onGrid_iff hf]
  rwa [e] at this

theorem rgen_length (a b : K) (n : Nat) : (rgen a b n).length = n := by
  unfold rgen
  split
  · next h => simp [h]
  · simp

theorem refine_full {n : Nat} {grid grid' : List (List K)} {lib : List Nat} (h : refine n grid lib = .ok grid') : Full n grid' := by
  unfold refine at h
  split at h
  · cases h
  · obtain rfl := Res.ok.inj h
    intro g hg
    obtain ⟨i, hi⟩ := List.mem_iff_getElem?.1 hg
    rw [List.getElem?_zipWith] at hi
    split at hi
    · rw [← Option.some.inj hi, rgen_length]
    · cases hi

theorem search_best (f : List K → Option K) (lo up : List K) (n r : Nat) (grid : List (List K)) (hf : Full n grid) (P : List K → Prop) (b : Best K) (h : IsBest f P b)
    (b' : Best K) (gs : List (List (List K))) (he : search f lo up n r grid b = .ok (b', gs)) :
    gs.length = r + 1 ∧ IsBest f (fun T => P T ∨ (Within lo up T ∧ ∃ g ∈ gs, OnGrid g T)) b' := by
  induction r generalizing grid b P b' gs with
  | zero =>
    unfold search at he
    obtain ⟨rfl, rfl⟩ := Prod.mk.inj (Res.ok.inj he)
    refine ⟨rfl, ?_⟩
    have := scan_best f lo up n grid hf P b h
    simpa using this
  | succ r ih =>
    unfold search at he
    obtain ⟨grid', h1, he⟩ := Res.bind_eq_ok.1 he
    obtain ⟨⟨b1, gs1⟩, h2, he⟩ := Res.bind_eq_ok.1 he
    obtain ⟨rfl, rfl⟩ := Prod.mk.inj (Res.ok.inj he)
    obtain ⟨i1, i2⟩ := ih grid' (refine_full h1) _ _ (scan_best f lo up n grid hf P b h) b1 gs1 h2
    refine ⟨by simp [i1], ?_⟩
    have e : (fun T => (P T ∨ (Within lo up T ∧ OnGrid grid T)) ∨ (Within lo up T ∧ ∃ g ∈ gs1, OnGrid g T)) = (fun T => P T ∨ (Within lo up T ∧ ∃ g ∈ grid :: gs1, OnGrid g T)) := by
      funext T
      simp only [List.mem_cons, exists_eq_or_imp, eq_iff_iff]
      tauto
    rwa [e] at i2

/-! ### C195 -/

/-- The result is the best fit among all the combinations of temperatures on the grids that respect the limits. -/
theorem C195_best (f : List K → Option K) (lo up : List K) (m n r : Nat) (t0 t1 : K) (b : Best K) (gs : List (List (List K))) (h : run f lo up m n r t0 t1 = .ok (b, gs)) :
    gs.length = r + 1 ∧ gs.head? = some (firstGrid m n t0 t1) ∧
    (∀ T c, Within lo up T → (∃ g ∈ gs, OnGrid g T) → f T = some c → ∃ c0, b.chi2 = some c0 ∧ c0 ≤ c) ∧
    (∀ c0, b.chi2 = some c0 → Within lo up b.temps ∧ (∃ g ∈ gs, OnGrid g b.temps) ∧ f b.temps = some c0) := by
  have hfull : Full n (firstGrid m n t0 t1) := by
    intro g hg
    rw [List.eq_of_mem_replicate hg, rgen_length]
  obtain ⟨h1, h2, h3⟩ := search_best f lo up n r _ hfull (fun _ => False) ⟨none, [], []⟩ ⟨fun _ _ h => h.elim, fun _ h => by cases h⟩ b gs h
  refine ⟨h1, ?_, fun T c hw hg hc => h2 T c (Or.inr ⟨hw, hg⟩) hc, fun c0 hc => ?_⟩
  · unfold run at h
    cases r with
    | zero => unfold search at h; obtain ⟨-, rfl⟩ := Prod.mk.inj (Res.ok.inj h); rfl
    | succ r =>
      unfold search at h
      obtain ⟨grid', -, h⟩ := Res.bind_eq_ok.1 h
      obtain ⟨⟨b1, gs1⟩, -, h⟩ := Res.bind_eq_ok.1 h
      obtain ⟨-, rfl⟩ := Prod.mk.inj (Res.ok.inj h)
      rfl
  · obtain ⟨a1, a2⟩ := h3 c0 hc
    rcases a1 with a1 | ⟨a1, a3⟩
    · exact a1.elim
    · exact ⟨a1, a3, a2⟩

theorem rgen_get (a b : K) (n k : Nat) (hn : 2 ≤ n) (hk : k < n) : (rgen a b n).getD k 0 = a + k * ((b - a) / ((n : K) - 1)) := by
  unfold rgen
  rw [if_neg (by omega), List.getD_eq_getElem?_getD, List.getElem?_map, List.getElem?_range hk]
  rfl

theorem rgen_mem (a b t0 t1 : K) (n : Nat) (ha : t0 ≤ a ∧ a ≤ t1) (hb : t0 ≤ b ∧ b ≤ t1) (x : K) (hx : x ∈ rgen a b n) : t0 ≤ x ∧ x ≤ t1 := by
  unfold rgen at hx
  split at hx
  · rw [List.mem_singleton.1 hx]; exact ha
  · next h1 =>
    obtain ⟨k, hk, rfl⟩ := List.mem_map.1 hx
    have hk := List.mem_range.1 hk
    by_cases hn : n = 1
    · omega
    have hn1 : (0 : K) < (n : K) - 1 := by
      have : (2 : K) ≤ (n : K) := by exact_mod_cast (by omega : 2 ≤ n)
      linarith
    have hs0 : 0 ≤ (k : K) / ((n : K) - 1) := div_nonneg (by exact_mod_cast Nat.zero_le k) hn1.le
    have hs1 : (k : K) / ((n : K) - 1) ≤ 1 := by
      rw [div_le_one hn1]
      have : ((k + 1 : Nat) : K) ≤ (n : K) := by exact_mod_cast hk
      push_cast at this
      linarith
    set s := (k : K) / ((n : K) - 1) with hs
    have e : a + (k : K) * ((b - a) / ((n : K) - 1)) = (1 - s) * a + s * b := by rw [hs]; field_simp; ring
    rw [e]
    constructor
    · have q1 := mul_le_mul_of_nonneg_left ha.1 (by linarith : 0 ≤ 1 - s)
      have q2 := mul_le_mul_of_nonneg_left hb.1 hs0
      have : (1 - s) * t0 + s * t0 = t0 := by ring
      linarith
    · have q1 := mul_le_mul_of_nonneg_left ha.2 (by linarith : 0 ≤ 1 - s)
      have q2 := mul_le_mul_of_nonneg_left hb.2 hs0
      have : (1 - s) * t1 + s * t1 = t1 := by ring
      linarith

/-- the indices of the best fit: none, or those of a combination -/
theorem scan_lib (f : List K → Option K) (lo up : List K) (n : Nat) (grid : List (List K)) (b : Best K) :
    (scan f lo up n grid b = b) ∨ ((scan f lo up n grid b).lib ∈ tuples grid.length n ∧ (scan f lo up n grid b).temps = tempsOf grid (scan f lo up n grid b).lib) := by
  unfold scan
  have key : ∀ (ts : List (List Nat)), (∀ t ∈ ts, t ∈ tuples grid.length n) → ∀ b0 : Best K, (b0 = b ∨ (b0.lib ∈ tuples grid.length n ∧ b0.temps = tempsOf grid b0.lib)) →
      (ts.foldl (tryOne f lo up grid) b0 = b) ∨ ((ts.foldl (tryOne f lo up grid) b0).lib ∈ tuples grid.length n ∧
        (ts.foldl (tryOne f lo up grid) b0).temps = tempsOf grid (ts.foldl (tryOne f lo up grid) b0).lib) := by
    intro ts
    induction ts with
    | nil => intro _ b0 h; exact h
    | cons t ts ih =>
      intro hts b0 h
      rw [List.foldl_cons]
      apply ih (fun x hx => hts x (by simp [hx]))
      unfold tryOne
      split
      · exact h
      · split
        · exact Or.inr ⟨hts t (by simp), rfl⟩
        · exact h
  exact key _ (fun _ h => h) b (Or.inl rfl)

/-- All the temperatures that are tried are in the range of the library. -/
theorem C195_range (f : List K → Option K) (lo up : List K) (m n r : Nat) (hn : 0 < n) (t0 t1 : K) (ht : t0 ≤ t1) (b : Best K) (gs : List (List (List K)))
    (h : run f lo up m n r t0 t1 = .ok (b, gs)) : ∀ g ∈ gs, g.length = m ∧ ∀ row ∈ g, row.length = n ∧ ∀ x ∈ row, t0 ≤ x ∧ x ≤ t1 := by
  have key : ∀ (r : Nat) (grid : List (List K)) (best b : Best K) (gs : List (List (List K))), grid.length = m → Full n grid → (∀ row ∈ grid, ∀ x ∈ row, t0 ≤ x ∧ x ≤ t1) →
      (best.lib = [] ∨ best.lib ∈ tuples m n) → search f lo up n r grid best = .ok (b, gs) →
      ∀ g ∈ gs, g.length = m ∧ ∀ row ∈ g, row.length = n ∧ ∀ x ∈ row, t0 ≤ x ∧ x ≤ t1 := by
    intro r
    induction r with
    | zero =>
      intro grid best b gs h1 h2 h3 _ he g hg
      unfold search at he
      obtain ⟨-, rfl⟩ := Prod.mk.inj (Res.ok.inj he)
      obtain rfl := List.mem_singleton.1 hg
      exact ⟨h1, fun row hr => ⟨h2 row hr, h3 row hr⟩⟩
    | succ r ih =>
      intro grid best b gs h1 h2 h3 h4 he
      unfold search at he
      obtain ⟨grid', e1, he⟩ := Res.bind_eq_ok.1 he
      obtain ⟨⟨b1, gs1⟩, e2, he⟩ := Res.bind_eq_ok.1 he
      obtain ⟨-, rfl⟩ := Prod.mk.inj (Res.ok.inj he)
      have hlib : (scan f lo up n grid best).lib = [] ∨ (scan f lo up n grid best).lib ∈ tuples m n := by
        rcases scan_lib f lo up n grid best with h | h
        · rw [h]; exact h4
        · rw [h1] at h; exact Or.inr h.1
      have hfull := refine_full e1
      unfold refine at e1
      split at e1
      · cases e1
      next hne =>
      have hlib := hlib.resolve_left hne
      obtain ⟨l1, l2⟩ := mem_tuples.1 hlib
      have e1 := Res.ok.inj e1
      have hlen : grid'.length = m := by rw [← e1, List.length_zipWith, h1, l1, Nat.min_self]
      intro g hg
      rcases List.mem_cons.1 hg with rfl | hg
      · exact ⟨h1, fun row hr => ⟨h2 row hr, h3 row hr⟩⟩
      · refine ih grid' _ b1 gs1 hlen hfull ?_ (Or.inr hlib) e2 g hg
        intro row hr x hx
        obtain ⟨j, hj⟩ := List.mem_iff_getElem?.1 hr
        rw [← e1, List.getElem?_zipWith] at hj
        split at hj
        · next a i ha hi =>
          rw [← Option.some.inj hj] at hx
          have hrow := List.mem_of_getElem? ha
          have hi := l2 i (List.mem_of_getElem? hi)
          have hget : ∀ k < n, t0 ≤ a.getD k 0 ∧ a.getD k 0 ≤ t1 := by
            intro k hk
            have hk' : k < a.length := by rw [h2 a hrow]; exact hk
            rw [List.getD_eq_getElem?_getD, List.getElem?_eq_getElem hk', Option.getD_some]
            exact h3 a hrow _ (List.getElem_mem hk')
          exact rgen_mem _ _ t0 t1 n (hget _ (by omega)) (hget _ (by split <;> omega)) x hx
        · cases hj
  refine key r _ _ b gs (by simp [firstGrid]) ?_ ?_ (Or.inl rfl) h
  · intro g hg; rw [List.eq_of_mem_replicate hg, rgen_length]
  · intro row hr x hx
    rw [List.eq_of_mem_replicate hr] at hx
    exact rgen_mem t0 t1 t0 t1 n ⟨le_refl _, ht⟩ ⟨ht, le_refl _⟩ x hx

/-- The second grid is around the best temperatures of the first. -/
theorem C195_refine_partial (f : List K → Option K) (lo up : List K) (m n : Nat) (hn : 2 ≤ n) (t0 t1 : K) (ht : t0 ≤ t1) (b b0 : Best K) (g0 g g' : List (List K))
    (h0 : run f lo up m n 0 t0 t1 = .ok (b0, [g0])) (h : run f lo up m n 1 t0 t1 = .ok (b, [g, g'])) :
    List.Forall₂ (fun x row => ∃ u v, row.head? = some u ∧ row.getLast? = some v ∧ u ≤ x ∧ x ≤ v) b0.temps g' := by
  unfold run search at h0 h
  obtain ⟨hb0, -⟩ := Prod.mk.inj (Res.ok.inj h0)
  obtain ⟨grid', e1, h⟩ := Res.bind_eq_ok.1 h
  obtain ⟨⟨b1, gs1⟩, e2, h⟩ := Res.bind_eq_ok.1 h
  unfold search at e2
  obtain ⟨-, rfl⟩ := Prod.mk.inj (Res.ok.inj e2)
  obtain ⟨-, h⟩ := Prod.mk.inj (Res.ok.inj h)
  simp only [List.cons.injEq, and_true] at h
  obtain ⟨-, rfl⟩ := h
  rw [hb0] at e1
  have hsc := scan_lib f lo up n (firstGrid m n t0 t1) ⟨none, [], []⟩
  rw [hb0] at hsc
  unfold refine at e1
  split at e1
  · cases e1
  next hne =>
  rcases hsc with hsc | ⟨s1, s2⟩
  · rw [hsc] at hne; exact absurd rfl hne
  rw [s2, ← Res.ok.inj e1]
  obtain ⟨l1, l2⟩ := mem_tuples.1 s1
  generalize b0.lib = lib at l1 l2 ⊢
  have hlen : (firstGrid m n t0 t1).length = m := by simp [firstGrid]
  rw [hlen] at l1
  unfold tempsOf firstGrid
  clear * - l1 l2 hn ht
  have hn1 : (0 : K) < (n : K) - 1 := by
    have : (2 : K) ≤ (n : K) := by exact_mod_cast hn
    linarith
  have hstep : 0 ≤ (t1 - t0) / ((n : K) - 1) := div_nonneg (by linarith) hn1.le
  induction m generalizing lib with
  | zero => exact .nil
  | succ m ih =>
    cases lib with
    | nil => simp at l1
    | cons i lib =>
      rw [List.replicate_succ, List.zipWith_cons_cons, List.zipWith_cons_cons]
      refine .cons ?_ (ih lib (by simpa using l1) (fun j hj => l2 j (by simp [hj])))
      have hi := l2 i (by simp)
      have hends : ∀ a b : K, (rgen a b n).head? = some a ∧ (rgen a b n).getLast? = some b := by
        intro a b
        unfold rgen
        rw [if_neg (by omega)]
        constructor
        · rw [List.head?_map, List.head?_range, if_neg (by omega)]
          simp
        · rw [List.getLast?_map, List.getLast?_range, if_neg (by omega)]
          simp only [Option.map_some, Option.some.injEq]
          rw [Nat.cast_sub (by omega), Nat.cast_one]
          field_simp
          ring
      refine ⟨_, _, (hends _ _).1, (hends _ _).2, ?_, ?_⟩
      · rw [rgen_get _ _ n _ hn (by omega), rgen_get _ _ n _ hn hi]
        have : ((i - 1 : Nat) : K) ≤ (i : K) := by exact_mod_cast Nat.sub_le i 1
        have := mul_le_mul_of_nonneg_right this hstep
        linarith
      · rw [rgen_get _ _ n _ hn hi, rgen_get _ _ n _ hn (by split <;> omega)]
        have : (i : K) ≤ ((if i < n - 1 then i + 1 else n - 1 : Nat) : K) := by
          have : i ≤ if i < n - 1 then i + 1 else n - 1 := by split <;> omega
          exact_mod_cast this
        have := mul_le_mul_of_nonneg_right this hstep
        linarith

/-- If no combination of the first grid respects the limits, or no fit succeeds, the program stops. -/
theorem C195_none_refuted (f : List K → Option K) (lo up : List K) (m n r : Nat) (t0 t1 : K) (hno : ∀ T, OnGrid (firstGrid m n t0 t1) T → Within lo up T → f T = none) :
    run f lo up m n (r + 1) t0 t1 = .abort := by
  have hfull : Full n (firstGrid m n t0 t1) := by
    intro g hg
    rw [List.eq_of_mem_replicate hg, rgen_length]
  have hs : scan f lo up n (firstGrid m n t0 t1) ⟨none, [], []⟩ = ⟨none, [], []⟩ := by
    unfold scan
    have key : ∀ ts : List (List Nat), (∀ t ∈ ts, t ∈ tuples (firstGrid m n t0 t1).length n) → ts.foldl (tryOne f lo up (firstGrid m n t0 t1)) ⟨none, [], []⟩ = ⟨none, [], []⟩ := by
      intro ts
      induction ts with
      | nil => intro _; rfl
      | cons t ts ih =>
        intro hts
        rw [List.foldl_cons]
        have : tryOne f lo up (firstGrid m n t0 t1) ⟨none, [], []⟩ t = ⟨none, [], []⟩ := by
          unfold tryOne
          cases hb : bad lo up (tempsOf (firstGrid m n t0 t1) t) with
          | true => rfl
          | false =>
            rw [if_neg (by simp), hno _ ((onGrid_iff hfull).2 ⟨t, hts t (by simp), rfl⟩) (bad_iff.1 hb)]
            rfl
        rw [this]
        exact ih fun x hx => hts x (by simp [hx])
    exact key _ fun _ h => h
  unfold run search
  rw [hs]
  rfl

/-- Example: limits between two temperatures of the grid. -/
example : run (K := ℚ) (fun _ => some 1) [1] [2] 1 4 1 0 9 = .abort := by decide +kernel

/-- A round that does not improve the fit leaves the indices of the previous grid: the next grid does not contain the best temperature (2), and the chi2, which is lower at 2.1,
does not improve. -/
theorem C195_stale_refuted : run (K := ℚ) (fun T => T.head?.map fun x => (x - 21 / 10) ^ 2) [0] [10] 1 6 2 0 10 =
    .ok (⟨some (1 / 100), [1], [2]⟩, [[[0, 2, 4, 6, 8, 10]], [[0, 4 / 5, 8 / 5, 12 / 5, 16 / 5, 4]], [[0, 8 / 25, 16 / 25, 24 / 25, 32 / 25, 8 / 5]]]) := by decide +kernel

/-- The limits are those of the sources if all the sources of the catalogue are fitted. -/
theorem C195_limits_partial (tl : List K) (sids : List Nat) (hs : ∀ i ∈ sids, i < tl.length) : limitsOf tl (List.range tl.length) sids = sids.mapM (get tl) := by
  have h1 : (List.range tl.length).mapM (get tl) = .ok tl := by
    rw [Res.mapM_ok (g := fun i => tl.getD i 0)]
    · congr 1
      apply List.ext_getElem (by simp)
      intro i h1 h2
      simp [h2]
    · intro i hi
      have hi := List.mem_range.1 hi
      unfold get
      simp [hi]
  have h2 : sids.mapM (get (List.range tl.length)) = .ok sids := by
    rw [Res.mapM_ok (g := fun i => i)]
    · simp
    · intro i hi
      unfold get
      simp [hs i hi]
  unfold limitsOf
  rw [h1, Res.ok_bind, h2, Res.ok_bind]

/-- A source without measurements before the others: the second source gets the limit of the third, and the third stops the program. -/
theorem C195_limits_refuted : limitsOf (K := ℚ) [10, 20, 30] [1, 2] [0] = .ok [30] ∧ limitsOf (K := ℚ) [10, 20, 30] [1, 2] [1] = .abort := by
  constructor <;> decide +kernel

/-- The best chi2 of a round is written as the best chi2 of the last round. -/
theorem C195_chi2_refuted (br b : K) (h : br ≠ 0) : reported br br b = b := by
  unfold reported
  rw [div_self h, one_mul]

/-- f_PAH outside its range -/
def Wild (mx : K) (v : Option K) : Prop := ∃ x, v = some x ∧ (x < 0 ∨ mx < x)

/-- The loop on f_PAH ends after at most one fit more than there are sources; no f_PAH is then outside its range, and the chi2 is that of the fit with the sources that are
fixed, which have f_PAH = 0. -/
theorem C195_pah (fit : List Bool → List (Option K) → List (Option K) × Option K) (mx : K) (hmx : 0 ≤ mx) (m : Nat)
    (hlen : ∀ fx v, (fit fx v).1.length = v.length) (hfix : ∀ fx v (i : Nat), fx[i]? = some true → (fit fx v).1[i]? = v[i]?)
    (v0 : List (Option K)) (hv : v0.length = m) (fuel : Nat) (hfu : m < fuel) :
    ∃ fx v c, pahLoop fit mx fuel (List.replicate m false) v0 = some (fx, v, c) ∧ fx.length = m ∧ (∀ x ∈ v, ¬ Wild mx x) ∧ (∀ (i : Nat), fx[i]? = some true → v[i]? = some (some 0)) ∧
      ∃ w, w.length = m ∧ (v, c) = fit fx w := by
  have key : ∀ (fuel : Nat) (fx : List Bool) (v : List (Option K)), fx.length = m → v.length = m → (∀ (i : Nat), fx[i]? = some true → v[i]? = some (some 0)) → fx.count false < fuel →
      ∃ fx' v' c, pahLoop fit mx fuel fx v = some (fx', v', c) ∧ fx'.length = m ∧ (∀ x ∈ v', ¬ Wild mx x) ∧ (∀ (i : Nat), fx'[i]? = some true → v'[i]? = some (some 0)) ∧
        ∃ w, w.length = m ∧ (v', c) = fit fx' w := by
    intro fuel
    induction fuel with
    | zero => intro fx v _ _ _ h; omega
    | succ fuel ih =>
      intro fx v h1 h2 h3 h4
      unfold pahLoop
      set wild : Option K → Bool := fun v => match v with
        | none => false
        | some v => v < 0 || mx < v with hw
      have hwild : ∀ x, wild x = true ↔ Wild mx x := by
        intro x
        cases x with
        | none => simp [hw, Wild]
        | some x => simp [hw, Wild]
      dsimp only
      have hl : (fit fx v).1.length = m := by rw [hlen, h2]
      by_cases ha : (fit fx v).1.any wild = true
      · rw [if_pos ha]
        apply ih
        · rw [List.length_zipWith, h1, hl, Nat.min_self]
        · rw [List.length_map, hl]
        · intro i hi
          rw [List.getElem?_zipWith] at hi
          split at hi
          · next b x hb hx =>
            rw [List.getElem?_map, hx, Option.map_some]
            have hi : (b || wild x) = true := Option.some.inj hi
            by_cases hwx : wild x = true
            · rw [if_pos hwx]
            · rw [if_neg hwx]
              have hbt : b = true := by simpa [hwx] using hi
              rw [hbt] at hb
              rw [hfix fx v i hb, h3 i hb] at hx
              exact hx.symm
          · cases hi
        · -- one more source is fixed
          have hlt : ∀ (fx : List Bool) (r : List (Option K)), fx.length = r.length → (∀ (i : Nat), fx[i]? = some true → ∀ x, r[i]? = some x → wild x = false) → r.any wild = true →
              (List.zipWith (fun b v => b || wild v) fx r).count false < fx.count false := by
            intro fx
            induction fx with
            | nil => intro r hl _ ha; cases r with
              | nil => simp at ha
              | cons _ _ => simp at hl
            | cons b fx ihf =>
              intro r hl hf ha
              cases r with
              | nil => simp at ha
              | cons x r =>
                have hle : ∀ (fx : List Bool) (r : List (Option K)), fx.length = r.length → (List.zipWith (fun b v => b || wild v) fx r).count false ≤ fx.count false := by
                  intro fx
                  induction fx with
                  | nil => intro r _; simp
                  | cons b fx ihf =>
                    intro r hl
                    cases r with
                    | nil => simp
                    | cons x r =>
                      rw [List.zipWith_cons_cons, List.count_cons, List.count_cons]
                      have := ihf r (by simpa using hl)
                      cases b <;> cases wild x <;> simp <;> omega
                rw [List.zipWith_cons_cons, List.count_cons, List.count_cons]
                have hl' : fx.length = r.length := by simpa using hl
                by_cases hx : wild x = true
                · have hb : b = false := by
                    cases b with
                    | false => rfl
                    | true => rw [hf 0 rfl x rfl] at hx; cases hx
                  have := hle fx r hl'
                  rw [hb, hx]
                  simp
                  omega
                · have := ihf r hl' (fun i hi y hy => hf (i + 1) hi y hy) (by simpa [hx] using ha)
                  have hx : wild x = false := by simpa using hx
                  rw [hx]
                  cases b <;> simp <;> omega
          have := hlt fx (fit fx v).1 (by rw [h1, hl]) (by
            intro i hi x hx
            rw [hfix fx v i hi, h3 i hi] at hx
            rw [← Option.some.inj hx]
            simp [hw, hmx]) ha
          omega
      · rw [if_neg ha]
        refine ⟨fx, _, _, rfl, h1, ?_, ?_, v, h2, rfl⟩
        · intro x hx hwx
          exact ha (List.any_eq_true.2 ⟨x, hx, (hwild x).2 hwx⟩)
        · intro i hi
          rw [hfix fx v i hi, h3 i hi]
  refine key fuel (List.replicate m false) v0 (by simp) hv ?_ (by simpa using hfu)
  intro i hi
  have := List.mem_of_getElem? hi
  exact absurd (List.eq_of_mem_replicate this) (by simp)

end Verif.GfitSearch
