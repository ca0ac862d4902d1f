import Verif.Astro.Wcs
import Verif.Io.HeaderProps
import Verif.Str.SplitProps
import Mathlib.Algebra.Field.Rat
import Mathlib.Algebra.CharZero.Defs
import Mathlib.Tactic.FieldSimp
import Mathlib.Tactic.Ring
import Mathlib.Tactic.NormNum
/-!
# C123: axes and conversions of a WCS
-/
namespace Verif.Wcs
open Verif Verif.Str

variable {K : Type}

/-! ### Spec -/

/-- Spec: what precedes the first hyphen of the type of an axis -/
def kindOf (p : Prm K) (i : Nat) : Str := (p.ctype.getD i []).takeWhile (· ≠ '-')

/-- Spec: `i` is the first axis of a kind -/
def First (p : Prm K) (name : Str) (i : Nat) : Prop := i < p.naxis ∧ kindOf p i = name ∧ ∀ j < i, kindOf p j ≠ name

/-- Spec: there is no axis of a kind -/
def Absent (p : Prm K) (name : Str) : Prop := ∀ i < p.naxis, kindOf p i ≠ name

/-- Spec: the contract of `wcslib`: one element by axis, and conversions that are inverse of each other -/
structure Good (p : Prm K) : Prop where
  small : p.naxis < W
  ctype : p.ctype.length = p.naxis
  cunit : p.cunit.length = p.naxis
  crpix : p.crpix.length = p.naxis
  crval : p.crval.length = p.naxis
  p2s : ∀ v, v.length = p.naxis → (p.p2s v).length = p.naxis ∧ p.s2p (p.p2s v) = v
  s2p : ∀ v, v.length = p.naxis → (p.s2p v).length = p.naxis ∧ p.p2s (p.s2p v) = v

/-- Spec: the results of `f` in the columns `cs` depend only on its arguments in these columns -/
def Separable (f : List K → List K) (n : Nat) (cs : List Nat) : Prop :=
  ∀ u v : List K, u.length = n → v.length = n → (∀ c ∈ cs, u[c]? = v[c]?) → ∀ c ∈ cs, (f u)[c]? = (f v)[c]?

/-- Spec: the axes of the sky of `w` are two different axes -/
structure Sky (w : Wcs K) (p : Prm K) : Prop where
  prm : w.prm = some p
  ra : w.ra < p.naxis
  dec : w.dec < p.naxis
  ne : w.ra ≠ w.dec
  xy : w.x = w.ra ∧ w.y = w.dec ∨ w.x = w.dec ∧ w.y = w.ra

/-- Spec: a point with two coordinates given, the others being zero -/
def point [Zero K] (n a b : Nat) (s t : K) : List K := ((List.replicate n 0).set a s).set b t

/-! ### The constructor -/

theorem getD_lt {α : Type} {l : List α} {d : α} {i : Nat} (h : i < l.length) : l.getD i d = l[i] := by
  rw [List.getD_eq_getElem?_getD, List.getElem?_eq_getElem h]; rfl

theorem takeWhile_self {c : Char} {s : Str} (h : c ∉ s) : s.takeWhile (· ≠ c) = s := by
  induction s with
  | nil => rfl
  | cons x s ih =>
    simp only [List.mem_cons, not_or] at h
    rw [List.takeWhile_cons, if_pos (by simpa using Ne.symm h.1), ih h.2]

theorem takeWhile_cut {c : Char} {a t : Str} (h : c ∉ a) : (a ++ c :: t).takeWhile (· ≠ c) = a := by
  induction a with
  | nil => simp
  | cons x a ih =>
    simp only [List.mem_cons, not_or] at h
    rw [List.cons_append, List.takeWhile_cons, if_pos (by simpa using Ne.symm h.1), ih h.2]

theorem kind_eq (p : Prm K) (i : Nat) (h : i < p.ctype.length) : kind p i = .ok (kindOf p i) := by
  unfold kind kindOf
  rw [Res.rd_eq_ok.2 (List.getElem?_eq_getElem h), Res.ok_bind, getD_lt h]
  obtain ⟨l, e, hs⟩ := C34_split p.ctype[i] ['-'] (by simp)
  rw [e, Res.ok_bind]
  generalize p.ctype[i] = s at hs
  have hp := isSplit_pieces (by simp) hs
  have hn : ∀ x ∈ l, '-' ∉ x := fun x hx hm => by
    obtain ⟨a, b, e⟩ := List.append_of_mem hm
    exact hp x hx ⟨a, b, by simp [e]⟩
  cases hs with
  | last =>
    simp only
    rw [takeWhile_self (hn s (by simp))]
  | cons a t rest =>
    simp only
    rw [List.append_assoc, List.singleton_append, takeWhile_cut (hn a (by simp))]

theorem findLoop_spec (p : Prm K) (name : Str) (hl : p.ctype.length = p.naxis) : ∀ l : List Nat, (∀ i ∈ l, i < p.naxis) →
    (∃ a i b, l = a ++ i :: b ∧ kindOf p i = name ∧ (∀ j ∈ a, kindOf p j ≠ name) ∧ findLoop p name l = .ok (p.naxis - 1 - i)) ∨
    ((∀ i ∈ l, kindOf p i ≠ name) ∧ findLoop p name l = .ok npos)
  | [], _ => Or.inr ⟨by simp, rfl⟩
  | i :: l, h => by
    rw [findLoop, kind_eq p i (by rw [hl]; exact h i (by simp)), Res.ok_bind]
    by_cases hi : kindOf p i = name
    · rw [if_pos hi]
      exact Or.inl ⟨[], i, l, rfl, hi, by simp, rfl⟩
    · rw [if_neg hi]
      rcases findLoop_spec p name hl l (fun j hj => h j (by simp [hj])) with ⟨a, j, b, e, h1, h2, h3⟩ | ⟨h1, h2⟩
      · exact Or.inl ⟨i :: a, j, b, by rw [e]; rfl, h1, by simpa using ⟨hi, h2⟩, h3⟩
      · exact Or.inr ⟨by simpa using ⟨hi, h1⟩, h2⟩

theorem findAxis_first (p : Prm K) (name : Str) (hl : p.ctype.length = p.naxis) (i : Nat) (h : First p name i) : findAxis p name = .ok (p.naxis - 1 - i) := by
  obtain ⟨h1, h2, h3⟩ := h
  rcases findLoop_spec p name hl (List.range p.naxis) (fun j hj => List.mem_range.1 hj) with ⟨a, j, b, e, k1, k2, k3⟩ | ⟨k1, -⟩
  · have hget : ∀ t, t < p.naxis → (a ++ j :: b)[t]? = some t := fun t ht => by rw [← e, List.getElem?_range ht]
    have hlen : a.length < p.naxis := by
      have := congrArg List.length e
      simp at this
      omega
    have hj : j = a.length := by
      have := hget a.length hlen
      rw [List.getElem?_append_right (le_refl _)] at this
      simpa using this
    have hmem : ∀ t < j, t ∈ a := fun t ht => by
      have := hget t (by omega)
      rw [List.getElem?_append_left (by omega)] at this
      exact List.mem_of_getElem? this
    rcases Nat.lt_trichotomy i j with hlt | rfl | hgt
    · exact absurd h2 (k2 i (hmem i hlt))
    · exact k3
    · exact absurd k1 (h3 j hgt)
  · exact absurd h2 (k1 i (List.mem_range.2 h1))

theorem findAxis_absent (p : Prm K) (name : Str) (hl : p.ctype.length = p.naxis) (h : Absent p name) : findAxis p name = .ok npos := by
  rcases findLoop_spec p name hl (List.range p.naxis) (fun j hj => List.mem_range.1 hj) with ⟨a, j, b, e, k1, k2, k3⟩ | ⟨-, k2⟩
  · have : j ∈ List.range p.naxis := by rw [e]; simp
    exact absurd k1 (h j (List.mem_range.1 this))
  · exact k2

theorem fillRev_spec {α : Type} (n : Nat) (d : α) (f : Nat → Res (Option α)) (g : Nat → Option α) (h : ∀ i < n, f i = .ok (g i)) :
    fillRev n d f = .ok ((List.range n).map fun j => (g (n - 1 - j)).getD d) := by
  have key : ∀ k ≤ n, (List.range k).foldlM (fillStep n f) (List.replicate n d) = Res.ok ((List.range n).map fun j => if n - 1 - j < k then (g (n - 1 - j)).getD d else d) := by
    intro k
    induction k with
    | zero =>
      intro _
      simp only [List.range_zero, List.foldlM_nil, Res.pure_def, Nat.not_lt_zero, if_false, List.map_const', List.length_range]
    | succ k ih =>
      intro hk
      rw [List.range_succ, List.foldlM_append, ih (by omega), Res.ok_bind]
      simp only [List.foldlM_cons, List.foldlM_nil, fillStep]
      rw [h k (by omega), Res.ok_bind]
      cases hg : g k with
      | none =>
        simp only [Res.ok_bind, Res.pure_def]
        congr 1
        apply List.map_congr_left
        intro j hj
        rw [List.mem_range] at hj
        by_cases h1 : n - 1 - j < k
        · rw [if_pos h1, if_pos (by omega)]
        · rw [if_neg h1]
          by_cases h2 : n - 1 - j < k + 1
          · rw [if_pos h2, show n - 1 - j = k by omega, hg]; rfl
          · rw [if_neg h2]
      | some v =>
        simp only [Res.ok_bind, Res.pure_def]
        congr 1
        apply List.ext_getElem
        · simp
        · intro j h1 h2
          simp only [List.length_set, List.length_map, List.length_range] at h1 h2
          rw [List.getElem_set]
          simp only [List.getElem_map, List.getElem_range]
          by_cases hj : n - 1 - k = j
          · rw [if_pos hj, if_pos (by omega), show n - 1 - j = k by omega, hg]; rfl
          · rw [if_neg hj]
            by_cases h3 : n - 1 - j < k
            · rw [if_pos h3, if_pos (by omega)]
            · rw [if_neg h3, if_neg (by omega)]
  unfold fillRev
  rw [key n (le_refl n)]
  congr 1
  apply List.map_congr_left
  intro j hj
  rw [List.mem_range] at hj
  rw [if_pos (by omega)]

theorem rev_get {α : Type} (n : Nat) (g : Nat → α) (i : Nat) (h : i < n) : ((List.range n).map fun j => g (n - 1 - j))[n - 1 - i]? = some (g i) := by
  rw [List.getElem?_map, List.getElem?_range (by omega)]
  simp only [Option.map_some]
  rw [show n - 1 - (n - 1 - i) = i by omega]

/-- **C123** the axes of `wcs` are in the order of the dimensions of the images of `vif`, the reverse of the order of the FITS keywords: dimensions, units and
types are those of the corresponding keywords -/
theorem C123_axes (size : Nat → Option Nat) (p : Prm K) (hp : Good p) : ∃ w, ofPrm size p = .ok w ∧ w.prm = some p ∧
    w.dims.length = p.naxis ∧ w.hasUnit.length = p.naxis ∧ w.type.length = p.naxis ∧
    ∀ i < p.naxis, w.dims[p.naxis - 1 - i]? = some ((size (i + 1)).getD 0) ∧
      (w.hasUnit[p.naxis - 1 - i]? = some true ↔ ∃ c ∈ p.cunit.getD i [], c ∉ blanks) ∧
      w.type[p.naxis - 1 - i]? = some (if kindOf p i = "RA".toList ∨ kindOf p i = "DEC".toList then .spatial else if kindOf p i = "WAVE".toList then .wave
        else if kindOf p i = "FREQ".toList then .freq else .unknown) := by
  unfold ofPrm
  rw [fillRev_spec p.naxis 0 _ (fun i => size (i + 1)) (fun _ _ => rfl), Res.ok_bind]
  rw [fillRev_spec p.naxis false _ (fun i => some (decide (Fits.strip (p.cunit.getD i []) ≠ []))) (fun i hi => by
    have hi' : i < p.cunit.length := by rw [hp.cunit]; exact hi
    rw [Res.rd_eq_ok.2 (List.getElem?_eq_getElem hi'), Res.ok_bind, Fits.trim_strip, Res.ok_bind, getD_lt hi']), Res.ok_bind]
  rw [fillRev_spec p.naxis .unknown _ (fun i => typeOf (kindOf p i)) (fun i hi => by
    rw [kind_eq p i (by rw [hp.ctype]; exact hi)]; rfl), Res.ok_bind]
  have hf : ∀ name, ∃ t, findAxis p name = .ok t := by
    intro name
    rcases findLoop_spec p name hp.ctype (List.range p.naxis) (fun j hj => List.mem_range.1 hj) with ⟨a, j, b, e, k1, k2, k3⟩ | ⟨-, k2⟩
    · exact ⟨_, k3⟩
    · exact ⟨_, k2⟩
  obtain ⟨tx, hx⟩ := hf "RA".toList
  obtain ⟨ty, hy⟩ := hf "DEC".toList
  rw [hx, Res.ok_bind, hy, Res.ok_bind]
  refine ⟨_, rfl, rfl, by simp, by simp, by simp, fun i hi => ⟨?_, ?_, ?_⟩⟩
  · exact rev_get p.naxis (fun i => (size (i + 1)).getD 0) i hi
  · rw [rev_get p.naxis (fun i => (some (decide (Fits.strip (p.cunit.getD i []) ≠ []))).getD false) i hi]
    simp only [Option.getD_some, Option.some.injEq, decide_eq_true_eq]
    obtain ⟨a, b, e, h1, h2, h3, h4⟩ := Fits.strip_spec (p.cunit.getD i [])
    constructor
    · intro hne
      cases hs : Fits.strip (p.cunit.getD i []) with
      | nil => exact absurd hs hne
      | cons c m =>
        rw [hs] at h3 e
        exact ⟨c, by rw [e]; simp, h3 c rfl⟩
    · rintro ⟨c, hc, hb⟩ hs
      rw [hs, List.append_nil] at e
      rw [e] at hc
      rcases List.mem_append.1 hc with h | h
      · exact hb (h1 c h)
      · exact hb (h2 c h)
  · rw [rev_get p.naxis (fun i => (typeOf (kindOf p i)).getD .unknown) i hi]
    unfold typeOf
    congr 1
    by_cases c1 : kindOf p i = "RA".toList
    · rw [if_pos c1, if_pos (Or.inl c1)]; rfl
    · rw [if_neg c1]
      by_cases c2 : kindOf p i = "DEC".toList
      · rw [if_pos c2, if_pos (Or.inr c2)]; rfl
      · rw [if_neg c2, if_neg (not_or.2 ⟨c1, c2⟩)]
        by_cases c3 : kindOf p i = "WAVE".toList
        · rw [if_pos c3, if_pos c3]; rfl
        · rw [if_neg c3, if_neg c3]
          by_cases c4 : kindOf p i = "FREQ".toList
          · rw [if_pos c4, if_pos c4]; rfl
          · rw [if_neg c4, if_neg c4]; rfl

theorem ofPrm_sky (size : Nat → Option Nat) (p : Prm K) (hp : Good p) (tx ty : Nat) (hx : findAxis p "RA".toList = .ok tx) (hy : findAxis p "DEC".toList = .ok ty)
    (w : Wcs K) (hw : ofPrm size p = .ok w) : w.prm = some p ∧ w.ra = (skyAxes tx ty).1 ∧ w.dec = (skyAxes tx ty).2.1 ∧ w.x = (skyAxes tx ty).2.2.1 ∧
      w.y = (skyAxes tx ty).2.2.2 := by
  unfold ofPrm at hw
  rw [fillRev_spec p.naxis 0 _ (fun i => size (i + 1)) (fun _ _ => rfl), Res.ok_bind] at hw
  rw [fillRev_spec p.naxis false _ (fun i => some (decide (Fits.strip (p.cunit.getD i []) ≠ []))) (fun i hi => by
    have hi' : i < p.cunit.length := by rw [hp.cunit]; exact hi
    rw [Res.rd_eq_ok.2 (List.getElem?_eq_getElem hi'), Res.ok_bind, Fits.trim_strip, Res.ok_bind, getD_lt hi']), Res.ok_bind] at hw
  rw [fillRev_spec p.naxis .unknown _ (fun i => typeOf (kindOf p i)) (fun i hi => by
    rw [kind_eq p i (by rw [hp.ctype]; exact hi)]; rfl), Res.ok_bind, hx, Res.ok_bind, hy, Res.ok_bind] at hw
  cases hw
  exact ⟨rfl, rfl, rfl, rfl, rfl⟩

/-- **C123** the right ascension and declination are on the axes whose types are `RA` and `DEC`; `y` is the first of the two and `x` the second -/
theorem C123_sky_partial (size : Nat → Option Nat) (p : Prm K) (hp : Good p) (i j : Nat) (hi : First p "RA".toList i) (hj : First p "DEC".toList j)
    (w : Wcs K) (hw : ofPrm size p = .ok w) : Sky w p ∧ w.ra = p.naxis - 1 - i ∧ w.dec = p.naxis - 1 - j ∧ w.y < w.x := by
  have hne : i ≠ j := by
    rintro rfl
    have := hi.2.1.symm.trans hj.2.1
    exact absurd this (by decide +kernel)
  have h1 := hi.1
  have h2 := hj.1
  have hs := hp.small
  obtain ⟨e0, e1, e2, e3, e4⟩ := ofPrm_sky size p hp _ _ (findAxis_first p _ hp.ctype i hi) (findAxis_first p _ hp.ctype j hj) w hw
  have hn : p.naxis - 1 - i ≠ npos := by unfold npos; omega
  unfold skyAxes at e1 e2 e3 e4
  rw [if_pos ⟨hn, hn⟩] at e1 e2 e3 e4
  by_cases hlt : p.naxis - 1 - i < p.naxis - 1 - j
  · rw [if_pos hlt] at e1 e2 e3 e4
    simp only at e1 e2 e3 e4
    exact ⟨⟨e0, by omega, by omega, by omega, by omega⟩, e1, e2, by omega⟩
  · rw [if_neg hlt] at e1 e2 e3 e4
    simp only at e1 e2 e3 e4
    exact ⟨⟨e0, by omega, by omega, by omega, by omega⟩, e1, e2, by omega⟩

/-- **C123** without an axis `RA`, the first two axes of the file are used -/
theorem C123_default (size : Nat → Option Nat) (p : Prm K) (hp : Good p) (h : Absent p "RA".toList) (h2 : 2 ≤ p.naxis)
    (w : Wcs K) (hw : ofPrm size p = .ok w) : Sky w p ∧ w.ra = 1 ∧ w.dec = 0 ∧ w.x = 1 ∧ w.y = 0 := by
  obtain ⟨ty, hy⟩ : ∃ t, findAxis p "DEC".toList = .ok t := by
    rcases findLoop_spec p "DEC".toList hp.ctype (List.range p.naxis) (fun j hj => List.mem_range.1 hj) with ⟨a, j, b, e, k1, k2, k3⟩ | ⟨-, k2⟩
    · exact ⟨_, k3⟩
    · exact ⟨_, k2⟩
  obtain ⟨e0, e1, e2, e3, e4⟩ := ofPrm_sky size p hp _ _ (findAxis_absent p _ hp.ctype h) hy w hw
  unfold skyAxes at e1 e2 e3 e4
  rw [if_neg (by simp)] at e1 e2 e3 e4
  simp only at e1 e2 e3 e4
  exact ⟨⟨e0, by omega, by omega, by omega, by omega⟩, e1, e2, e3, e4⟩

/-! ### Conversions -/

theorem block_len {g : Nat → List K} {n : Nat} : ∀ k, (∀ i < k, (g i).length = n) → ((List.range k).flatMap g).length = k * n
  | 0, _ => by simp
  | k + 1, h => by
    rw [List.range_succ, List.flatMap_append, List.length_append, block_len k (fun i hi => h i (by omega)), List.flatMap_singleton, h k (by omega), Nat.succ_mul]

theorem block_split (g : Nat → List K) {k i : Nat} (hi : i < k) : ∃ rest, (List.range k).flatMap g = (List.range i).flatMap g ++ (g i ++ rest) := by
  obtain ⟨m, rfl⟩ : ∃ m, k = i + 1 + m := ⟨k - (i + 1), by omega⟩
  refine ⟨((List.range m).map fun x => i + 1 + x).flatMap g, ?_⟩
  rw [List.range_add, List.flatMap_append, List.range_succ, List.flatMap_append, List.flatMap_singleton, List.append_assoc]

theorem block_row {g : Nat → List K} {n k i : Nat} (h : ∀ i < k, (g i).length = n) (hi : i < k) : (((List.range k).flatMap g).drop (i * n)).take n = g i := by
  obtain ⟨rest, e⟩ := block_split g hi
  have hl : ((List.range i).flatMap g).length = i * n := block_len i (fun j hj => h j (by omega))
  rw [e, ← hl, List.drop_left, ← h i hi, List.take_left]

theorem block_get {g : Nat → List K} {n k i c : Nat} (h : ∀ i < k, (g i).length = n) (hi : i < k) (hc : c < n) :
    ((List.range k).flatMap g)[i * n + c]? = (g i)[c]? := by
  obtain ⟨rest, e⟩ := block_split g hi
  have hl : ((List.range i).flatMap g).length = i * n := block_len i (fun j hj => h j (by omega))
  rw [e, ← hl, List.getElem?_append_right (by omega), Nat.add_sub_cancel_left, List.getElem?_append_left (by rw [h i hi]; exact hc)]

theorem flat_bound {i k n c : Nat} (hi : i < k) (hc : c < n) : i * n + c < k * n := by
  have : (i + 1) * n ≤ k * n := Nat.mul_le_mul_right n hi
  rw [Nat.succ_mul] at this
  omega

theorem getD_eq_get {l : List K} {i : Nat} {d : K} (h : i < l.length) : l[i]? = some (l.getD i d) := by
  rw [List.getD_eq_getElem?_getD, List.getElem?_eq_getElem h]; rfl

variable [Field K]

theorem point_length (n a b : Nat) (s t : K) : (point n a b s t).length = n := by simp [point]

theorem fill_spec (n a b : Nat) (ha : a < n) (hb : b < n) (u v : List K) (hl : u.length = v.length) (hW : u.length * n ≤ W) : ∀ k ≤ u.length,
    (List.range k).foldlM (fun m i => do
      let s ← Res.rd u i
      let t ← Res.rd v i
      let m ← put n m i a s
      put n m i b t) (List.replicate (u.length * n) (0 : K)) =
    Res.ok (((List.range k).flatMap fun i => point n a b (u.getD i 0) (v.getD i 0)) ++ List.replicate ((u.length - k) * n) 0) := by
  intro k
  induction k with
  | zero => intro _; simp
  | succ k ih =>
    intro hk
    have hg : ∀ i < k, (point n a b (u.getD i 0) (v.getD i 0)).length = n := fun i _ => point_length _ _ _ _ _
    have hlen := block_len (g := fun i => point n a b (u.getD i 0) (v.getD i 0)) k hg
    rw [List.range_succ, List.foldlM_append, ih (by omega), Res.ok_bind, List.foldlM_cons, Res.rd_eq_ok.2 (getD_eq_get (d := 0) (by omega : k < u.length)),
      Res.rd_eq_ok.2 (getD_eq_get (d := 0) (by omega : k < v.length)), Res.ok_bind, Res.ok_bind, List.flatMap_append, List.flatMap_singleton]
    generalize ((List.range k).flatMap fun i => point n a b (u.getD i 0) (v.getD i 0)) = P at hlen ⊢
    have h1 := flat_bound (i := k) (k := u.length) (by omega) ha
    have h2 := flat_bound (i := k) (k := u.length) (by omega) hb
    have hrep : List.replicate ((u.length - k) * n) (0 : K) = List.replicate n 0 ++ List.replicate ((u.length - (k + 1)) * n) 0 := by
      rw [← List.replicate_add, show u.length - k = (u.length - (k + 1)) + 1 by omega, Nat.succ_mul, Nat.add_comm]
    have htot : (u.length - k) * n = n + (u.length - (k + 1)) * n := by
      rw [show u.length - k = (u.length - (k + 1)) + 1 by omega, Nat.succ_mul, Nat.add_comm]
    unfold put
    rw [Nat.mod_eq_of_lt (by omega), Nat.mod_eq_of_lt (by omega), if_pos (by
      rw [List.length_append, hlen, List.length_replicate, htot]; omega), Res.ok_bind, if_pos (by
      rw [List.length_set, List.length_append, hlen, List.length_replicate, htot]; omega), Res.ok_bind, List.foldlM_nil, Res.pure_def, hrep]
    congr 1
    rw [← hlen, List.set_append_right _ _ (by omega), Nat.add_sub_cancel_left, List.set_append_right _ _ (by omega), Nat.add_sub_cancel_left,
      List.set_append_left _ _ (by rw [List.length_replicate]; exact ha), List.set_append_left _ _ (by rw [List.length_set, List.length_replicate]; exact hb), List.append_assoc]
    rfl

theorem through_spec (f : List K → List K) (n a b c d : Nat) (ha : a < n) (hb : b < n) (hc : c < n) (hd : d < n)
    (hf : ∀ v, v.length = n → (f v).length = n) (u v : List K) (hl : u.length = v.length) (hW : u.length * n ≤ W) :
    through f n a b c d u v = .ok ((List.range u.length).map (fun i => (f (point n a b (u.getD i 0) (v.getD i 0))).getD c 0),
      (List.range u.length).map (fun i => (f (point n a b (u.getD i 0) (v.getD i 0))).getD d 0)) := by
  unfold through
  rw [fill_spec n a b ha hb u v hl hW u.length (le_refl _), Res.ok_bind, Nat.sub_self, Nat.zero_mul, List.replicate_zero, List.append_nil]
  have hg : ∀ i < u.length, (point n a b (u.getD i 0) (v.getD i 0)).length = n := fun i _ => point_length _ _ _ _ _
  have hconv : convert f u.length n ((List.range u.length).flatMap fun i => point n a b (u.getD i 0) (v.getD i 0)) =
      (List.range u.length).flatMap fun i => f (point n a b (u.getD i 0) (v.getD i 0)) := by
    unfold convert
    apply List.flatMap_congr
    intro i hi
    rw [block_row hg (List.mem_range.1 hi)]
  have hrd : ∀ e < n, (List.range u.length).mapM (fun i => get n (convert f u.length n ((List.range u.length).flatMap fun i =>
      point n a b (u.getD i 0) (v.getD i 0))) i e) = .ok ((List.range u.length).map (fun i => (f (point n a b (u.getD i 0) (v.getD i 0))).getD e 0)) := by
    intro e he
    apply Res.mapM_ok
    intro i hi
    have hi' := List.mem_range.1 hi
    have := flat_bound hi' he
    unfold get
    rw [Nat.mod_eq_of_lt (by omega), Res.rd_eq_ok, hconv, block_get (fun i _ => hf _ (point_length _ _ _ _ _)) hi' he]
    exact getD_eq_get (by rw [hf _ (point_length _ _ _ _ _)]; exact he)
  simp only
  rw [hrd c hc, Res.ok_bind, hrd d hd, Res.ok_bind]

theorem col_eq {n axis : Nat} (hn : n < W) (h : axis < n) : col n axis = n - 1 - axis := by
  unfold col sub64
  have h1 : (n + (W - 1)) % W = n - 1 := by
    rw [show n + (W - 1) = (n - 1) + W by have : 0 < W := by decide
                                          omega, Nat.add_mod_right, Nat.mod_eq_of_lt (by omega)]
  rw [h1, show n - 1 + (W - axis) = (n - 1 - axis) + W by omega, Nat.add_mod_right, Nat.mod_eq_of_lt (by omega)]

theorem Sky.lt {w : Wcs K} {p : Prm K} (h : Sky w p) : w.x < p.naxis ∧ w.y < p.naxis ∧ w.x ≠ w.y := by
  rcases h.xy with ⟨h1, h2⟩ | ⟨h1, h2⟩ <;> rw [h1, h2]
  · exact ⟨h.ra, h.dec, h.ne⟩
  · exact ⟨h.dec, h.ra, h.ne.symm⟩

/-- **C123** `ad2xy` converts each position separately: the coordinates of the sky are put on their axes, the others are zero, and the pixel coordinates are
read on their axes. The coordinates are not checked but no access is out of bounds. -/
theorem C123_ad2xy (w : Wcs K) (p : Prm K) (hp : Good p) (hs : Sky w p) (ra dec : List K) (hl : ra.length = dec.length) (hW : ra.length * p.naxis ≤ W) :
    ad2xy w ra dec = .ok (
      (List.range ra.length).map (fun i => (p.s2p (point p.naxis (p.naxis - 1 - w.ra) (p.naxis - 1 - w.dec) (ra.getD i 0) (dec.getD i 0))).getD (p.naxis - 1 - w.x) 0),
      (List.range ra.length).map (fun i => (p.s2p (point p.naxis (p.naxis - 1 - w.ra) (p.naxis - 1 - w.dec) (ra.getD i 0) (dec.getD i 0))).getD (p.naxis - 1 - w.y) 0)) := by
  have hn := hs.ra
  unfold ad2xy
  rw [hs.prm]
  simp only
  rw [Res.check_pos hl, Res.ok_bind]
  by_cases h0 : ra.length = 0
  · rw [if_pos h0, h0]; rfl
  · rw [if_neg h0, col_eq hp.small hs.ra, col_eq hp.small hs.dec, col_eq hp.small hs.lt.1, col_eq hp.small hs.lt.2.1,
      through_spec p.s2p p.naxis _ _ _ _ (by omega) (by omega) (by omega) (by omega) (fun v hv => (hp.s2p v hv).1) ra dec hl hW]

/-- **C123** the same for `xy2ad` -/
theorem C123_xy2ad (w : Wcs K) (p : Prm K) (hp : Good p) (hs : Sky w p) (x y : List K) (hl : x.length = y.length) (hW : x.length * p.naxis ≤ W) :
    xy2ad w x y = .ok (
      (List.range x.length).map (fun i => (p.p2s (point p.naxis (p.naxis - 1 - w.x) (p.naxis - 1 - w.y) (x.getD i 0) (y.getD i 0))).getD (p.naxis - 1 - w.ra) 0),
      (List.range x.length).map (fun i => (p.p2s (point p.naxis (p.naxis - 1 - w.x) (p.naxis - 1 - w.y) (x.getD i 0) (y.getD i 0))).getD (p.naxis - 1 - w.dec) 0)) := by
  have hn := hs.ra
  unfold xy2ad
  rw [hs.prm]
  simp only
  rw [Res.check_pos hl, Res.ok_bind]
  by_cases h0 : x.length = 0
  · rw [if_pos h0, h0]; rfl
  · rw [if_neg h0, col_eq hp.small hs.ra, col_eq hp.small hs.dec, col_eq hp.small hs.lt.1, col_eq hp.small hs.lt.2.1,
      through_spec p.p2s p.naxis _ _ _ _ (by omega) (by omega) (by omega) (by omega) (fun v hv => (hp.p2s v hv).1) x y hl hW]

omit [Field K] in
theorem map_range_getD [Zero K] (l : List K) : (List.range l.length).map (fun i => l.getD i 0) = l := by
  apply List.ext_getElem
  · simp
  · intro i h1 h2
    rw [List.getElem_map, List.getElem_range, getD_lt h2]

theorem point_get (n a b : Nat) (ha : a < n) (hb : b < n) (hab : a ≠ b) (s t : K) : (point n a b s t)[a]? = some s ∧ (point n a b s t)[b]? = some t := by
  unfold point
  constructor
  · rw [List.getElem?_set_ne (Ne.symm hab), List.getElem?_set_self (by simpa using ha)]
  · rw [List.getElem?_set_self (by simpa using hb)]

/-- one point there and back -/
theorem back (f g : List K → List K) (n a b c d : Nat) (ha : a < n) (hb : b < n) (hab : a ≠ b) (hcd : c = a ∧ d = b ∨ c = b ∧ d = a)
    (hg : ∀ v, v.length = n → (g v).length = n) (hfg : ∀ v, v.length = n → f (g v) = v) (hsep : Separable f n [a, b]) (s t : K) :
    (f (point n c d ((g (point n a b s t)).getD c 0) ((g (point n a b s t)).getD d 0))).getD a 0 = s ∧
    (f (point n c d ((g (point n a b s t)).getD c 0) ((g (point n a b s t)).getD d 0))).getD b 0 = t := by
  have hl := hg _ (point_length n a b s t)
  have hpt : ∀ e ∈ [a, b], (point n c d ((g (point n a b s t)).getD c 0) ((g (point n a b s t)).getD d 0))[e]? = (g (point n a b s t))[e]? := by
    have hc : c < n := by omega
    have hd : d < n := by omega
    have hcd' : c ≠ d := by omega
    obtain ⟨h1, h2⟩ := point_get n c d hc hd hcd' ((g (point n a b s t)).getD c 0) ((g (point n a b s t)).getD d 0)
    rw [← getD_eq_get (by omega)] at h1 h2
    intro e he
    simp only [List.mem_cons, List.not_mem_nil, or_false] at he
    rcases hcd with ⟨rfl, rfl⟩ | ⟨rfl, rfl⟩ <;> rcases he with rfl | rfl <;> assumption
  have := hsep _ _ (point_length n c d _ _) hl hpt
  rw [hfg _ (point_length n a b s t)] at this
  obtain ⟨h1, h2⟩ := point_get n a b ha hb hab s t
  have e1 := (this a (by simp)).trans h1
  have e2 := (this b (by simp)).trans h2
  constructor
  · rw [List.getD_eq_getElem?_getD (i := a), e1]; rfl
  · rw [List.getD_eq_getElem?_getD (i := b), e2]; rfl

/-- **C123** `ad2xy` gives back the pixel coordinates converted by `xy2ad`, if the conversion of the sky does not depend on the other axes -/
theorem C123_pixel_roundtrip (w : Wcs K) (p : Prm K) (hp : Good p) (hs : Sky w p) (hsep : Separable p.s2p p.naxis [p.naxis - 1 - w.x, p.naxis - 1 - w.y])
    (x y : List K) (hl : x.length = y.length) (hW : x.length * p.naxis ≤ W) :
    ∃ ra dec, xy2ad w x y = .ok (ra, dec) ∧ ra.length = x.length ∧ dec.length = x.length ∧ ad2xy w ra dec = .ok (x, y) := by
  have hn := hs.ra
  have hxy := hs.lt
  refine ⟨_, _, C123_xy2ad w p hp hs x y hl hW, by simp, by simp, ?_⟩
  rw [C123_ad2xy w p hp hs _ _ (by simp) (by simpa using hW)]
  simp only [List.length_map, List.length_range]
  have key : ∀ i, i < x.length → ∀ h : Nat → K, ((List.range x.length).map h).getD i 0 = h i := by
    intro i hi h
    rw [getD_lt (by simpa using hi)]; simp
  congr 2
  · conv_rhs => rw [← map_range_getD x]
    apply List.map_congr_left
    intro i hi
    rw [List.mem_range] at hi
    rw [key i hi, key i hi]
    exact (back p.s2p p.p2s p.naxis _ _ _ _ (by omega) (by omega) (by omega) (by rcases hs.xy with ⟨h1, h2⟩ | ⟨h1, h2⟩ <;> rw [h1, h2] <;> simp)
      (fun v hv => (hp.p2s v hv).1) (fun v hv => (hp.p2s v hv).2) hsep _ _).1
  · conv_rhs => rw [← map_range_getD y]
    rw [← hl]
    apply List.map_congr_left
    intro i hi
    rw [List.mem_range] at hi
    rw [key i hi, key i hi]
    exact (back p.s2p p.p2s p.naxis _ _ _ _ (by omega) (by omega) (by omega) (by rcases hs.xy with ⟨h1, h2⟩ | ⟨h1, h2⟩ <;> rw [h1, h2] <;> simp)
      (fun v hv => (hp.p2s v hv).1) (fun v hv => (hp.p2s v hv).2) hsep _ _).2

/-- **C123** `xy2ad` gives back the positions converted by `ad2xy` -/
theorem C123_sky_roundtrip (w : Wcs K) (p : Prm K) (hp : Good p) (hs : Sky w p) (hsep : Separable p.p2s p.naxis [p.naxis - 1 - w.ra, p.naxis - 1 - w.dec])
    (ra dec : List K) (hl : ra.length = dec.length) (hW : ra.length * p.naxis ≤ W) :
    ∃ x y, ad2xy w ra dec = .ok (x, y) ∧ x.length = ra.length ∧ y.length = ra.length ∧ xy2ad w x y = .ok (ra, dec) := by
  have hn := hs.ra
  have hn2 := hs.dec
  have hn3 := hs.ne
  have hxy := hs.lt
  refine ⟨_, _, C123_ad2xy w p hp hs ra dec hl hW, by simp, by simp, ?_⟩
  rw [C123_xy2ad w p hp hs _ _ (by simp) (by simpa using hW)]
  simp only [List.length_map, List.length_range]
  have key : ∀ i, i < ra.length → ∀ h : Nat → K, ((List.range ra.length).map h).getD i 0 = h i := by
    intro i hi h
    rw [getD_lt (by simpa using hi)]; simp
  congr 2
  · conv_rhs => rw [← map_range_getD ra]
    apply List.map_congr_left
    intro i hi
    rw [List.mem_range] at hi
    rw [key i hi, key i hi]
    exact (back p.p2s p.s2p p.naxis _ _ _ _ (by omega) (by omega) (by omega) (by rcases hs.xy with ⟨h1, h2⟩ | ⟨h1, h2⟩ <;> rw [h1, h2] <;> simp)
      (fun v hv => (hp.s2p v hv).1) (fun v hv => (hp.s2p v hv).2) hsep _ _).1
  · conv_rhs => rw [← map_range_getD dec]
    rw [← hl]
    apply List.map_congr_left
    intro i hi
    rw [List.mem_range] at hi
    rw [key i hi, key i hi]
    exact (back p.p2s p.s2p p.naxis _ _ _ _ (by omega) (by omega) (by omega) (by rcases hs.xy with ⟨h1, h2⟩ | ⟨h1, h2⟩ <;> rw [h1, h2] <;> simp)
      (fun v hv => (hp.s2p v hv).1) (fun v hv => (hp.s2p v hv).2) hsep _ _).2

omit [Field K] in
/-- with two axes the condition is always met -/
theorem C123_two_axes (f : List K → List K) (a b : Nat) (hab : a ≠ b) (ha : a < 2) (hb : b < 2) : Separable f 2 [a, b] := by
  intro u v hu hv h c hc
  have : u = v := by
    apply List.ext_getElem?
    intro i
    by_cases hi : i < 2
    · exact h i (by simp; omega)
    · rw [List.getElem?_eq_none (by omega), List.getElem?_eq_none (by omega)]
  rw [this]

/-- **C123** without the data of `wcslib`, or with coordinates of different sizes, the conversions stop -/
theorem C123_refused (w : Wcs K) (u v : List K) (h : w.prm = none ∨ u.length ≠ v.length) : ad2xy w u v = .abort ∧ xy2ad w u v = .abort := by
  unfold ad2xy xy2ad
  cases hp : w.prm with
  | none => exact ⟨rfl, rfl⟩
  | some p =>
    rw [hp] at h
    have hne : u.length ≠ v.length := by simpa using h
    simp only
    rw [Res.check_neg hne]
    exact ⟨rfl, rfl⟩

/-! ### One axis -/

/-- Spec: the lists by axis have the right size -/
structure Shaped (w : Wcs K) (p : Prm K) : Prop where
  prm : w.prm = some p
  dims : w.dims.length = p.naxis
  hasUnit : w.hasUnit.length = p.naxis
  type : w.type.length = p.naxis

/-- Spec: the units that can be used on an axis -/
def Compatible : AxisType → Unit → Prop
  | .unknown, _ => True
  | .wave, u => u ∈ [.native, .wcslib, .m, .cm, .mm, .um, .nm, .angstrom]
  | .freq, u => u ∈ [.native, .wcslib, .hz, .khz, .mhz, .ghz, .thz]
  | .spatial, u => u ∈ [.native, .wcslib, .deg, .rad]

omit [Field K] in
/-- **C123** a unit is valid for an axis that exists, has a unit if and only if a unit is requested, and whose type allows it -/
theorem C123_valid_unit (w : Wcs K) (p : Prm K) (h : Shaped w p) (axis : Nat) (u : Unit) : ∃ b, validUnit w axis u = .ok b ∧
    (b = true ↔ axis < p.naxis ∧ (w.hasUnit[axis]? = some true ↔ u ≠ .native) ∧ ∀ t, w.type[axis]? = some t → Compatible t u) := by
  unfold validUnit axisCount
  rw [h.prm]
  simp only
  by_cases hax : p.naxis ≤ axis
  · rw [if_pos hax]
    exact ⟨false, rfl, by simp; omega⟩
  · have h1 : axis < w.hasUnit.length := by rw [h.hasUnit]; omega
    have h2 : axis < w.type.length := by rw [h.type]; omega
    rw [if_neg hax, Res.rd_eq_ok.2 (List.getElem?_eq_getElem h1), Res.ok_bind, Res.rd_eq_ok.2 (List.getElem?_eq_getElem h2), Res.ok_bind,
      List.getElem?_eq_getElem h1, List.getElem?_eq_getElem h2]
    have hax' : axis < p.naxis := by omega
    generalize w.hasUnit[axis] = hu
    generalize w.type[axis] = ty
    simp only [hax', true_and, Option.some.injEq, forall_eq']
    cases hu <;> cases ty <;> cases u <;> first | exact ⟨true, rfl, by simp [Compatible]⟩ | exact ⟨false, rfl, by simp [Compatible]⟩

/-- **C123** the conversion of an axis stops if the axis does not exist or the unit is not valid -/
theorem C123_axis_refused (pi : K) (w : Wcs K) (p : Prm K) (h : Shaped w p) (axis : Nat) (u : Unit) (x : List K) (hv : validUnit w axis u ≠ .ok true) :
    x2w pi w axis u x = .abort ∧ w2x pi w axis u x = .abort ∧ buildAxis pi w axis u = .abort := by
  have hc : checked w axis u = .abort := by
    unfold checked
    rw [h.prm]
    simp only
    by_cases hax : axis < p.naxis
    · obtain ⟨b, hb, -⟩ := C123_valid_unit w p h axis u
      rw [Res.check_pos hax, Res.ok_bind, hb, Res.ok_bind, Res.check_neg (fun e => hv (by rw [hb, e]))]
      rfl
    · rw [Res.check_neg hax]; rfl
  unfold x2w w2x buildAxis
  rw [hc]
  exact ⟨rfl, rfl, rfl⟩

omit [Field K] in
theorem checked_ok (w : Wcs K) (p : Prm K) (h : Shaped w p) (axis : Nat) (u : Unit) (hv : validUnit w axis u = .ok true) : checked w axis u = .ok p ∧ axis < p.naxis := by
  obtain ⟨b, hb, hiff⟩ := C123_valid_unit w p h axis u
  rw [hv] at hb
  cases hb
  have hax := (hiff.1 rfl).1
  refine ⟨?_, hax⟩
  unfold checked
  rw [h.prm]
  simp only
  rw [Res.check_pos hax, Res.ok_bind, hv, Res.ok_bind, Res.check_pos rfl]
  rfl

theorem read_col (f : List K → List K) (n c : Nat) (hc : c < n) (ref : List K) (href : ref.length = n) (hf : ∀ v, v.length = n → (f v).length = n) (x : List K) :
    (x.map fun v => f (ref.set c v)).mapM (fun l => Res.rd l c) = .ok (x.map fun v => (f (ref.set c v)).getD c 0) := by
  rw [List.mapM_map]
  apply Res.mapM_ok
  intro v _
  exact Res.rd_eq_ok.2 (getD_eq_get (by rw [hf _ (by simpa using href)]; exact hc))

/-- **C123** the value on an axis of a pixel coordinate: the other pixel coordinates are those of the reference point, and the value is converted to the unit -/
theorem C123_x2w (pi : K) (w : Wcs K) (p : Prm K) (h : Shaped w p) (hp : Good p) (axis : Nat) (u : Unit) (hv : validUnit w axis u = .ok true) (x : List K) :
    x2w pi w axis u x = .ok (x.map fun v => (p.p2s (p.crpix.set (p.naxis - 1 - axis) v)).getD (p.naxis - 1 - axis) 0 * conv pi u) := by
  obtain ⟨hc, hax⟩ := checked_ok w p h axis u hv
  unfold x2w
  rw [hc, Res.ok_bind]
  simp only
  rw [read_col p.p2s p.naxis _ (by omega) _ hp.crpix (fun v hv => (hp.p2s v hv).1), Res.ok_bind, List.map_map]
  rfl

/-- **C123** the pixel coordinate of a value on an axis: the value is converted from the unit, and the other values are those of the reference point -/
theorem C123_w2x (pi : K) (w : Wcs K) (p : Prm K) (h : Shaped w p) (hp : Good p) (axis : Nat) (u : Unit) (hv : validUnit w axis u = .ok true) (v : List K) :
    w2x pi w axis u v = .ok (v.map fun v => (p.s2p (p.crval.set (p.naxis - 1 - axis) (v / conv pi u))).getD (p.naxis - 1 - axis) 0) := by
  obtain ⟨hc, hax⟩ := checked_ok w p h axis u hv
  unfold w2x
  rw [hc, Res.ok_bind]
  simp only
  rw [read_col p.s2p p.naxis _ (by omega) _ hp.crval (fun v hv => (hp.s2p v hv).1), List.map_map]
  rfl

/-- **C123** the values of an axis are those of the pixels `1`, `2`, … up to its size -/
theorem C123_build_axis (pi : K) (w : Wcs K) (p : Prm K) (h : Shaped w p) (axis : Nat) (u : Unit) (hv : validUnit w axis u = .ok true) :
    ∃ n, w.dims[axis]? = some n ∧ buildAxis pi w axis u = x2w pi w axis u ((List.range n).map fun i : Nat => (i : K) + 1) := by
  obtain ⟨hc, hax⟩ := checked_ok w p h axis u hv
  have hd : axis < w.dims.length := by rw [h.dims]; exact hax
  refine ⟨_, List.getElem?_eq_getElem hd, ?_⟩
  unfold buildAxis x2w
  rw [hc, Res.ok_bind, Res.ok_bind, Res.rd_eq_ok.2 (List.getElem?_eq_getElem hd), Res.ok_bind]
  simp only [List.map_map]
  rfl

/-- **C123** the units -/
theorem C123_units [CharZero K] (pi : K) :
    conv pi .m = 1 ∧ conv pi .cm = 100 * conv pi .m ∧ conv pi .mm = 10 * conv pi .cm ∧ conv pi .um = 1000 * conv pi .mm ∧ conv pi .nm = 1000 * conv pi .um ∧
    conv pi .angstrom = 10 * conv pi .nm ∧ conv pi .hz = 1 ∧ conv pi .hz = 1000 * conv pi .khz ∧ conv pi .khz = 1000 * conv pi .mhz ∧
    conv pi .mhz = 1000 * conv pi .ghz ∧ conv pi .ghz = 1000 * conv pi .thz ∧ conv pi .deg = 1 ∧ 180 * conv pi .rad = pi * conv pi .deg := by
  have : (10 : K) ≠ 0 := by norm_num
  simp only [conv]
  refine ⟨trivial, ?_, ?_, ?_, ?_, ?_, trivial, ?_, ?_, ?_, ?_, trivial, ?_⟩ <;> norm_num
  ring

theorem conv_ne [CharZero K] (pi : K) (hpi : pi ≠ 0) (u : Unit) : conv pi u ≠ 0 := by
  have h10 : (10 : K) ≠ 0 := by norm_num
  have h180 : (180 : K) ≠ 0 := by norm_num
  cases u <;> simp only [conv] <;> first | exact one_ne_zero | exact pow_ne_zero _ h10 | exact div_ne_zero one_ne_zero (pow_ne_zero _ h10) | exact div_ne_zero hpi h180

theorem back1 (f g : List K → List K) (n c : Nat) (hc : c < n) (ref ref' : List K) (hr : ref.length = n) (hr' : ref'.length = n)
    (hg : ∀ v, v.length = n → (g v).length = n) (hfg : ∀ v, v.length = n → f (g v) = v) (hsep : Separable f n [c]) (s : K) :
    (f (ref.set c ((g (ref'.set c s)).getD c 0))).getD c 0 = s := by
  have hl := hg (ref'.set c s) (by simpa using hr')
  have := hsep (ref.set c ((g (ref'.set c s)).getD c 0)) (g (ref'.set c s)) (by simpa using hr) hl (by
    intro e he
    rw [List.mem_singleton] at he
    subst he
    rw [List.getElem?_set_self (by omega), ← getD_eq_get (by omega)]) c (by simp)
  rw [hfg _ (by simpa using hr'), List.getElem?_set_self (by omega)] at this
  rw [List.getD_eq_getElem?_getD (l := f _), this]; rfl

/-- **C123** the pixel coordinates of the values of an axis, if the conversion of this axis does not depend on the others -/
theorem C123_axis_pixel_roundtrip [CharZero K] (pi : K) (hpi : pi ≠ 0) (w : Wcs K) (p : Prm K) (h : Shaped w p) (hp : Good p) (axis : Nat) (u : Unit)
    (hv : validUnit w axis u = .ok true) (hsep : Separable p.s2p p.naxis [p.naxis - 1 - axis]) (x : List K) :
    ∃ v, x2w pi w axis u x = .ok v ∧ v.length = x.length ∧ w2x pi w axis u v = .ok x := by
  obtain ⟨hc, hax⟩ := checked_ok w p h axis u hv
  refine ⟨_, C123_x2w pi w p h hp axis u hv x, by simp, ?_⟩
  rw [C123_w2x pi w p h hp axis u hv, List.map_map]
  congr 1
  conv_rhs => rw [← List.map_id x]
  apply List.map_congr_left
  intro s _
  rw [Function.comp, mul_div_cancel_right₀ _ (conv_ne pi hpi u)]
  exact back1 p.s2p p.p2s p.naxis _ (by omega) _ _ hp.crval hp.crpix (fun v hv => (hp.p2s v hv).1) (fun v hv => (hp.p2s v hv).2) hsep s

/-- **C123** the values of the pixel coordinates on an axis -/
theorem C123_axis_roundtrip [CharZero K] (pi : K) (hpi : pi ≠ 0) (w : Wcs K) (p : Prm K) (h : Shaped w p) (hp : Good p) (axis : Nat) (u : Unit)
    (hv : validUnit w axis u = .ok true) (hsep : Separable p.p2s p.naxis [p.naxis - 1 - axis]) (v : List K) :
    ∃ x, w2x pi w axis u v = .ok x ∧ x.length = v.length ∧ x2w pi w axis u x = .ok v := by
  obtain ⟨hc, hax⟩ := checked_ok w p h axis u hv
  refine ⟨_, C123_w2x pi w p h hp axis u hv v, by simp, ?_⟩
  rw [C123_x2w pi w p h hp axis u hv, List.map_map]
  congr 1
  conv_rhs => rw [← List.map_id v]
  apply List.map_congr_left
  intro s _
  rw [Function.comp, back1 p.p2s p.s2p p.naxis _ (by omega) _ _ hp.crpix hp.crval (fun v hv => (hp.s2p v hv).1) (fun v hv => (hp.s2p v hv).2) hsep,
    div_mul_cancel₀ _ (conv_ne pi hpi u)]
  rfl

/-! ### Examples and refutations -/

/-- a linear conversion by axis -/
def linear (a b : List ℚ) (v : List ℚ) : List ℚ := (v.zip (a.zip b)).map fun t => t.1 * t.2.1 + t.2.2

/-- three axes: right ascension, declination and wavelength -/
def cube : Prm ℚ := ⟨3, ["RA---TAN".toList, "DEC--TAN".toList, "WAVE".toList], ["deg".toList, "deg".toList, "m".toList], [1, 2, 3], [10, 20, 30],
  linear [2, 3, 1 / 2] [8, 14, 57 / 2], linear [1 / 2, 1 / 3, 2] [-4, -14 / 3, -57]⟩

theorem cube_good : Good cube := by
  refine ⟨by decide, rfl, rfl, rfl, rfl, ?_, ?_⟩
  all_goals
    intro v hv
    obtain ⟨a, b, c, rfl⟩ : ∃ a b c, v = [a, b, c] := by
      match v, hv with
      | [a, b, c], _ => exact ⟨a, b, c, rfl⟩
    refine ⟨rfl, ?_⟩
    simp only [cube, linear, List.zip_cons_cons, List.zip_nil_right, List.map_cons, List.map_nil, List.cons.injEq, and_true]
    refine ⟨?_, ?_, ?_⟩ <;> ring

theorem linear_separable (a b : List ℚ) (n : Nat) (cs : List Nat) : Separable (linear a b) n cs := by
  intro u v _ _ h c hc
  have key : ∀ l : List ℚ, (linear a b l)[c]? = (l[c]?).bind fun s => ((a.zip b)[c]?).map fun t => s * t.1 + t.2 := by
    intro l
    unfold linear
    rw [List.getElem?_map, List.zip, List.getElem?_zipWith]
    cases l[c]? <;> cases (a.zip b)[c]? <;> rfl
  rw [key, key, h c hc]

/-- the structure of the cube -/
def cubeWcs : Wcs ℚ := ⟨some cube, [7, 6, 5], [true, true, true], [.wave, .spatial, .spatial], 2, 1, 2, 1⟩

def cubeSize : Nat → Option Nat | 1 => some 5 | 2 => some 6 | 3 => some 7 | _ => none

theorem cube_ra : First cube "RA".toList 0 := ⟨by decide, by decide +kernel, by intro j hj; omega⟩

theorem cube_dec : First cube "DEC".toList 1 := ⟨by decide, by decide +kernel, by
  intro j hj
  obtain rfl : j = 0 := by omega
  decide +kernel⟩

theorem cube_sky : Sky cubeWcs cube := ⟨rfl, by decide, by decide, by decide, Or.inl ⟨rfl, rfl⟩⟩

theorem cube_shaped : Shaped cubeWcs cube := ⟨rfl, rfl, rfl, rfl⟩

example : ∃ w, ofPrm cubeSize cube = .ok w ∧ Sky w cube ∧ w.ra = 2 ∧ w.dec = 1 ∧ w.y < w.x := by
  obtain ⟨w, hw, -⟩ := C123_axes cubeSize cube cube_good
  exact ⟨w, hw, C123_sky_partial cubeSize cube cube_good 0 1 cube_ra cube_dec w hw⟩

example : ad2xy cubeWcs [12, 16] [23, 26] = .ok ([2, 4], [3, 4]) ∧ xy2ad cubeWcs [2, 4] [3, 4] = .ok ([12, 16], [23, 26]) := by
  constructor
  · rw [C123_ad2xy cubeWcs cube cube_good cube_sky [12, 16] [23, 26] rfl (by decide)]
    congr 1
    decide +kernel
  · rw [C123_xy2ad cubeWcs cube cube_good cube_sky [2, 4] [3, 4] rfl (by decide)]
    congr 1
    decide +kernel

example : ∃ ra dec, xy2ad cubeWcs [2, 4] [3, 4] = .ok (ra, dec) ∧ ra.length = 2 ∧ dec.length = 2 ∧ ad2xy cubeWcs ra dec = .ok ([2, 4], [3, 4]) :=
  C123_pixel_roundtrip cubeWcs cube cube_good cube_sky (linear_separable _ _ _ _) _ _ rfl (by decide)

example : ∃ x y, ad2xy cubeWcs [1, 2] [3, 4] = .ok (x, y) ∧ x.length = 2 ∧ y.length = 2 ∧ xy2ad cubeWcs x y = .ok ([1, 2], [3, 4]) :=
  C123_sky_roundtrip cubeWcs cube cube_good cube_sky (linear_separable _ _ _ _) _ _ rfl (by decide)

theorem cube_um : validUnit cubeWcs 0 .um = .ok true := rfl

example : ∃ v, x2w (3 : ℚ) cubeWcs 0 .um [1, 5, 9] = .ok v ∧ v.length = 3 ∧ w2x 3 cubeWcs 0 .um v = .ok [1, 5, 9] :=
  C123_axis_pixel_roundtrip 3 (by norm_num) cubeWcs cube cube_shaped cube_good 0 .um cube_um (linear_separable _ _ _ _) _

example : x2w (3 : ℚ) cubeWcs 0 .um [1, 3] = .ok [29000000, 30000000] := by
  rw [C123_x2w 3 cubeWcs cube cube_shaped cube_good 0 .um cube_um]
  congr 1
  decide +kernel

example : x2w (3 : ℚ) cubeWcs 0 .deg [1, 3] = .abort ∧ x2w (3 : ℚ) cubeWcs 1 .um [1, 3] = .abort ∧ x2w (3 : ℚ) cubeWcs 3 .um [1, 3] = .abort :=
  ⟨(C123_axis_refused 3 cubeWcs cube cube_shaped 0 .deg _ (by decide)).1, (C123_axis_refused 3 cubeWcs cube cube_shaped 1 .um _ (by decide)).1,
   (C123_axis_refused 3 cubeWcs cube cube_shaped 3 .um _ (by decide)).1⟩

/-- **C123** fails for a file with an axis `RA` and no axis `DEC`: the second test of the constructor is on the wrong variable, the axis of the declination is
`npos`, and the conversion of a position writes out of bounds -/
theorem C123_ra_only_refuted (size : Nat → Option Nat) (p : Prm K) (hp : Good p) (i : Nat) (hi : First p "RA".toList i) (hj : Absent p "DEC".toList)
    (w : Wcs K) (hw : ofPrm size p = .ok w) (a d : K) : w.dec = npos ∧ ad2xy w [a] [d] = .ub := by
  have h1 := hi.1
  have hs := hp.small
  obtain ⟨e0, e1, e2, -, -⟩ := ofPrm_sky size p hp _ _ (findAxis_first p _ hp.ctype i hi) (findAxis_absent p _ hp.ctype hj) w hw
  have hn : p.naxis - 1 - i < npos := by unfold npos; omega
  unfold skyAxes at e1 e2
  rw [if_pos ⟨by omega, by omega⟩, if_pos hn] at e1 e2
  simp only at e1 e2
  refine ⟨e2, ?_⟩
  have hcol : col p.naxis npos = p.naxis := by
    unfold col sub64 npos
    have e : (p.naxis + (W - 1)) % W = p.naxis - 1 := by
      have hpos : 0 < W := by decide
      rw [show p.naxis + (W - 1) = (p.naxis - 1) + W by omega, Nat.add_mod_right, Nat.mod_eq_of_lt (by omega)]
    have hW : W - (W - 1) = 1 := by decide
    rw [e, hW, Nat.sub_add_cancel (by omega), Nat.mod_eq_of_lt hs]
  unfold ad2xy
  rw [e0]
  simp only
  rw [Res.check_pos (show [a].length = [d].length from rfl), Res.ok_bind, if_neg (by simp), e1, e2, hcol, col_eq hs (by omega)]
  unfold through
  rw [show List.range [a].length = [0] from rfl, List.foldlM_cons]
  have hput : ∀ l : List K, l.length = p.naxis → ∀ s t : K, (put p.naxis l 0 (p.naxis - 1 - (p.naxis - 1 - i)) s >>= fun m => put p.naxis m 0 p.naxis t) = .ub := by
    intro l hl s t
    unfold put
    rw [Nat.zero_mul, Nat.zero_add, Nat.mod_eq_of_lt (by omega), if_pos (by omega), Res.ok_bind, Nat.zero_add, Nat.mod_eq_of_lt hs, if_neg (by
      rw [List.length_set]; omega)]
  have := hput (List.replicate ([a].length * p.naxis) 0) (by simp) a d
  change ((put p.naxis (List.replicate ([a].length * p.naxis) 0) 0 (p.naxis - 1 - (p.naxis - 1 - i)) a >>= fun m => put p.naxis m 0 p.naxis d) >>= _) >>= _ = _
  rw [this]
  rfl

/-- **C123** fails for a file with one axis: the default axes `0` and `1` are used and the conversion of a position writes out of bounds -/
theorem C123_one_axis_refuted (size : Nat → Option Nat) (p : Prm K) (hp : Good p) (h : Absent p "RA".toList) (h1 : p.naxis = 1)
    (w : Wcs K) (hw : ofPrm size p = .ok w) (a d : K) : ad2xy w [a] [d] = .ub := by
  obtain ⟨ty, hy⟩ : ∃ t, findAxis p "DEC".toList = .ok t := by
    rcases findLoop_spec p "DEC".toList hp.ctype (List.range p.naxis) (fun j hj => List.mem_range.1 hj) with ⟨a, j, b, e, k1, k2, k3⟩ | ⟨-, k2⟩
    · exact ⟨_, k3⟩
    · exact ⟨_, k2⟩
  obtain ⟨e0, e1, e2, -, -⟩ := ofPrm_sky size p hp _ _ (findAxis_absent p _ hp.ctype h) hy w hw
  unfold skyAxes at e1 e2
  rw [if_neg (by simp)] at e1 e2
  simp only at e1 e2
  unfold ad2xy
  rw [e0]
  simp only
  rw [Res.check_pos (show [a].length = [d].length from rfl), Res.ok_bind, if_neg (by simp), e1, e2, h1]
  unfold through
  rw [show List.range [a].length = [0] from rfl, List.foldlM_cons]
  have hput : put 1 (List.replicate ([a].length * 1) 0) 0 (col 1 1) a = .ub := by
    unfold put
    rw [List.length_replicate, if_neg (by
      show ¬ (0 * 1 + col 1 1) % W < 1 * 1
      decide)]
  change ((put 1 (List.replicate ([a].length * 1) 0) 0 (col 1 1) a >>= fun m => put 1 m 0 (col 1 0) d) >>= _) >>= _ = _
  rw [hput]
  rfl

/-- a spectrum along a strip -/
def strip2 : Prm ℚ := ⟨2, ["RA---CAR".toList, "WAVE".toList], ["deg".toList, "m".toList], [0, 0], [0, 0], id, id⟩

example (w : Wcs ℚ) (hw : ofPrm cubeSize strip2 = .ok w) : ad2xy w [1] [2] = .ub :=
  (C123_ra_only_refuted cubeSize strip2 ⟨by decide, rfl, rfl, rfl, rfl, fun v hv => ⟨hv, rfl⟩, fun v hv => ⟨hv, rfl⟩⟩ 0
    ⟨by decide, by decide +kernel, by intro j hj; omega⟩ (by unfold Absent; decide +kernel) w hw 1 2).2

/-- a spectrum -/
def spectrum : Prm ℚ := ⟨1, ["WAVE".toList], ["m".toList], [0], [0], id, id⟩

example (w : Wcs ℚ) (hw : ofPrm cubeSize spectrum = .ok w) : ad2xy w [1] [2] = .ub :=
  C123_one_axis_refuted cubeSize spectrum ⟨by decide, rfl, rfl, rfl, rfl, fun v hv => ⟨hv, rfl⟩, fun v hv => ⟨hv, rfl⟩⟩ (by
    intro j hj
    obtain rfl : j = 0 := by have : j < 1 := hj
                             omega
    decide +kernel) rfl w hw 1 2

end Verif.Wcs
