import Verif.Core.RearrangeProps
import Verif.Core.RemoveProps
import Mathlib.Algebra.BigOperators.Group.List.Lemmas
import Mathlib.Algebra.BigOperators.Ring.List
/-!
# Properties C01, C02: the shape invariant over histories, and moved-from vectors

A program owns finitely many vector variables; a history is a sequence of public operations on
them. `D x` is the number of dimensions of variable `x` (its C++ type).
-/
namespace Verif.Core.Vec
open Verif Verif.Index
variable {α : Type}

abbrev Store (α : Type) := Nat → Vec α

/-- Public operations on variables `x`, `y`. -/
inductive Op (α : Type) where
  | construct (x : Nat) (dims : List Nat)
  | resize (x : Nat) (dims : List Nat)
  | clear (x : Nat)
  | pushBack (x : Nat) (a : α)
  | pushSlice (x y : Nat)
  | append (n x y : Nat)
  | prepend (n x y : Nat)
  | append1 (x y : Nat)
  | prepend1 (x y : Nat)
  | remove (x : Nat) (ids : List Nat)
  | reverse (x : Nat)
  | shift (x : Nat) (k : Int)
  | transpose (x y : Nat)
  | replicate (x y : Nat) (args : List Nat)
  | reform (x y : Nat) (dims : List Nat)
  | flatten (x y : Nat)
  | copy (x y : Nat)
  | moveConstruct (x y : Nat)
  | moveAssign (x y : Nat)
  | write (x : Nat) (i : Int) (a : α)

/-- `x := r` -/
def put (s : Store α) (x : Nat) (r : Res (Vec α)) : Res (Store α) :=
  r.map fun v => Function.update s x v

/-- Effect of one operation. Aliased arguments: `append(v,v)` along a dimension resizes `v` before
reading it, so the size check of the view assignment fails (`generic-rearrange.hpp:176`,
`vec.hpp:782`); the one-dimensional form inserts a vector into itself, which
`std::vector::insert` does not allow. A vector type without dimensions does not exist. -/
def step [Inhabited α] (s : Store α) : Op α → Res (Store α)
  | .construct x dims => if dims = [] then .abort else put s x (ofDims dims)
  | .resize x dims => if dims = [] then .abort else put s x ((s x).resize dims)
  | .clear x => put s x (.ok (s x).clear)
  | .pushBack x a => if (s x).dims.length = 1 then put s x (.ok ((s x).pushBack a)) else .abort
  | .pushSlice x y => put s x ((s x).pushSlice (s y))
  | .append n x y => if x = y ∧ (s x).data ≠ [] then .abort else put s x ((s x).append n (s y))
  | .prepend n x y => if x = y ∧ (s x).data ≠ [] then .abort else put s x ((s x).prepend n (s y))
  | .append1 x y =>
    if (s x).dims.length = 1 ∧ (s y).dims.length = 1 then
      if x = y then .ub else put s x (.ok ((s x).append1 (s y)))
    else .abort
  | .prepend1 x y =>
    if (s x).dims.length = 1 ∧ (s y).dims.length = 1 then
      if x = y then .ub else put s x (.ok ((s x).prepend1 (s y)))
    else .abort
  | .remove x ids => put s x ((s x).remove ids)
  | .reverse x => put s x (.ok (s x).reverse)
  | .shift x k => put s x ((s x).shift k)
  | .transpose x y => put s x (s y).transpose
  | .replicate x y args => put s x ((s y).replicate args)
  | .reform x y dims => if dims = [] then .abort else put s x ((s y).reform dims)
  | .flatten x y => put s x (.ok (s y).flatten)
  | .copy x y => put s x (.ok (s y).copy)
  | .moveConstruct x y =>
    .ok (Function.update (Function.update s y (s y).moveCtor.2) x (s y).moveCtor.1)
  | .moveAssign x y =>
    .ok (Function.update (Function.update s y (s y).moveAssign.2) x (s y).moveAssign.1)
  | .write x i a => do
    let k ← toIdxSigned (s x).data.length i
    put s x (.ok ⟨(s x).data.set k a, (s x).dims⟩)

/-- The invariant of C01. -/
def Shaped (v : Vec α) : Prop := v.data.length = v.dims.prod

/-- Restrictions under which C01 holds: requested sizes do not exceed what `uint_t` can count,
removed indices are distinct and exist, and no move assignment. -/
def Legal (s : Store α) : Op α → Prop
  | .construct _ dims => dims.prod < W
  | .resize _ dims => dims.prod < W
  | .reform _ _ dims => dims.prod < W
  | .replicate _ y args => (args ++ (s y).dims).prod < W
  | .remove x ids => ids.Nodup ∧ ∀ i ∈ ids, i < (s x).dims.headD 0
  | .moveAssign _ _ => False
  | _ => True

/-- No vector holds more elements than memory can address (`std::vector::max_size`). -/
def Fits (s : Store α) : Prop := ∀ x, (s x).data.length < maxSize

/-- States reachable by legal histories, from default-constructed vectors with `D x` dimensions. -/
inductive Reachable [Inhabited α] (D : Nat → Nat) : Store α → Prop
  | init : Reachable D (fun x => Vec.empty (D x))
  | step (s s' : Store α) (op : Op α) : Reachable D s → Legal s op → step s op = .ok s' → Fits s' →
      Reachable D s'

/-! ## preservation -/

theorem resize0_shaped [Inhabited α] (v r : Vec α) (hd : v.dims.prod < W) (h : resize0 v = .ok r) :
    Shaped r ∧ r.dims = v.dims := by
  simp only [resize0, resizeData, foldl_prod, Nat.mod_eq_of_lt hd] at h
  split at h
  · simp only [Res.ok_bind, Res.ok.injEq] at h
    subst h
    refine ⟨?_, rfl⟩
    simp [Shaped]
    omega
  · simp at h

theorem pos_of_nonempty {v : Vec α} (h : Shaped v) (h0 : v.data ≠ []) : ∀ d ∈ v.dims, 0 < d := by
  intro d hd
  rcases Nat.eq_zero_or_pos d with rfl | h1
  · exfalso; apply h0
    apply List.length_eq_zero_iff.1
    rw [h]; exact List.prod_eq_zero hd
  · exact h1

theorem le_prod {l : List Nat} (h : ∀ d ∈ l, 0 < d) : ∀ d ∈ l, d ≤ l.prod := by
  intro d hd
  exact Nat.le_of_dvd (Nat.pos_of_ne_zero (by
    intro h0; rw [List.prod_eq_zero_iff] at h0; exact absurd (h 0 h0) (by omega)))
    (List.dvd_prod hd)

theorem assignAt_length (as : List Nat) (xs data r : List α) (h : assignAt data as xs = .ok r) :
    r.length = data.length := by
  induction as generalizing xs data with
  | nil => cases xs with
    | nil => simp only [assignAt, Res.ok.injEq] at h; subst h; rfl
    | cons => simp [assignAt] at h
  | cons a as ih => cases xs with
    | nil => simp [assignAt] at h
    | cons x xs =>
      simp only [assignAt] at h
      split at h
      · rw [ih _ _ h]; simp
      · simp at h

theorem set_prod (l : List Nat) (n n1 m : Nat) (h : l.getD n 0 = n1) (h0 : n1 ≠ 0) :
    ∃ P, l.prod = n1 * P ∧ (l.set n m).prod = m * P := by
  induction l generalizing n with
  | nil => simp at h; omega
  | cons d l ih =>
    cases n with
    | zero => simp at h; subst h; exact ⟨l.prod, by simp, by simp⟩
    | succ n =>
      obtain ⟨P, h1, h2⟩ := ih n (by simpa using h)
      exact ⟨d * P, by rw [List.prod_cons, h1]; ring, by
        rw [List.set_cons_succ, List.prod_cons, h2]; ring⟩

/-- the last part of `append` and `prepend` -/
theorem tail_shape [Inhabited α] (n n1 n2 : Nat) (v : Vec α) (l1 l2 : List Nat) (x1 x2 : List α)
    (r : Vec α) (hn1 : v.dims.getD n 0 = n1) (h1 : n1 ≠ 0)
    (hp : (n1 + n2) * (v.dims.prod / n1) < W)
    (h : (resize0 ⟨v.data, v.dims.set n ((n1 + n2) % W)⟩ >>= fun r =>
      access r.dims (sliceSels r.dims.length n l1) >>= fun p =>
      assignAt r.data p.2 x1 >>= fun d1 =>
      access r.dims (sliceSels r.dims.length n l2) >>= fun q =>
      assignAt d1 q.2 x2 >>= fun d2 => Res.ok ⟨d2, r.dims⟩) = .ok r) : Shaped r := by
  simp only [Res.bind_eq_ok] at h
  obtain ⟨a, ha, p, -, d1, hd1, q, -, d2, hd2, h⟩ := h
  obtain ⟨P, e1, e2⟩ := set_prod v.dims n n1 ((n1 + n2) % W) hn1 h1
  have hP : v.dims.prod / n1 = P := by rw [e1, Nat.mul_div_cancel_left _ (by omega)]
  have hlt : (v.dims.set n ((n1 + n2) % W)).prod < W := by
    rw [e2]; rw [hP] at hp
    exact lt_of_le_of_lt (Nat.mul_le_mul_right _ (Nat.mod_le _ _)) hp
  have := resize0_shaped _ _ hlt ha
  simp only [Res.ok.injEq] at h
  subst h
  unfold Shaped at this ⊢
  simp only
  rw [assignAt_length _ _ _ _ hd2, assignAt_length _ _ _ _ hd1, this.1]

theorem append_shape [Inhabited α] (n : Nat) (v w r : Vec α) (hv : Shaped v) (hw : Shaped w)
    (hs : v.data.length + w.data.length < W)
    (h : append n v w = .ok r ∨ prepend n v w = .ok r) : Shaped r := by
  by_cases hv0 : v.data = []
  · simp only [append, prepend, if_pos hv0, Res.ok.injEq, or_self] at h; subst h; exact hw
  by_cases hw0 : w.data = []
  · simp only [append, prepend, if_neg hv0, if_pos hw0, Res.ok.injEq, or_self] at h; subst h; exact hv
  by_cases hz : v.dims.getD n 0 = 0 ∨ w.dims.getD n 0 = 0
  · simp only [append, prepend, if_neg hv0, if_neg hw0, if_pos hz] at h; simp at h
  by_cases hc : v.data.length / v.dims.getD n 0 = w.data.length / w.dims.getD n 0
  · have hp : (v.dims.getD n 0 + w.dims.getD n 0) * (v.dims.prod / v.dims.getD n 0) < W := by
      rw [Nat.add_mul, ← hv]
      have e1 := Nat.mul_div_le v.data.length (v.dims.getD n 0)
      have e2 := Nat.mul_div_le w.data.length (w.dims.getD n 0)
      rw [← hc] at e2
      omega
    simp only [append, prepend, if_neg hv0, if_neg hw0, if_neg hz, Res.check_pos hc,
      Res.ok_bind] at h
    rcases h with h | h
    · exact tail_shape n _ _ v _ _ _ _ r rfl (by omega) hp h
    · exact tail_shape n _ _ v _ _ _ _ r rfl (by omega) hp h
  · simp only [append, prepend, if_neg hv0, if_neg hw0, if_neg hz, Res.check_neg hc] at h
    simp at h

theorem dim1 {v : Vec α} (h : v.dims.length = 1) : ∃ d, v.dims = [d] := by
  match hd : v.dims with
  | [d] => exact ⟨d, rfl⟩
  | [] => rw [hd] at h; simp at h
  | _ :: _ :: _ => rw [hd] at h; simp at h

theorem slices_length (p : Nat) (l : List α) (ks : List Nat) (n : Nat) (hl : l.length = n * p)
    (h : ∀ k ∈ ks, k < n) : (slices p l ks).length = ks.length * p := by
  induction ks with
  | nil => simp [slices]
  | cons k ks ih =>
    have := ih fun x hx => h x (by simp [hx])
    simp only [slices, List.flatMap_cons, List.length_append, List.length_cons] at this ⊢
    rw [this]
    have hk : (k + 1) * p ≤ n * p := Nat.mul_le_mul_right _ (h k (by simp))
    have e : (k + 1) * p = k * p + p := by ring
    have : (slice p l k).length = p := by
      simp only [slice, List.length_take, List.length_drop]; omega
    rw [this]; ring

theorem filter_not_mem_length (d : Nat) (ids : List Nat) (hn : ids.Nodup) (h : ∀ i ∈ ids, i < d) :
    ((List.range d).filter (· ∉ ids)).length = d - ids.length := by
  have h1 : ((List.range d).filter (· ∈ ids)).length = ids.length := by
    apply List.Perm.length_eq
    rw [List.perm_ext_iff_of_nodup (List.nodup_range.filter _) hn]
    intro a; simp only [List.mem_filter, List.mem_range, decide_eq_true_eq]
    exact ⟨fun h => h.2, fun h' => ⟨h a h', h'⟩⟩
  have h2 := List.length_eq_length_filter_add (l := List.range d) (fun i => decide (i ∈ ids))
  rw [List.length_range, h1] at h2
  have e : (List.range d).filter (fun i => !decide (i ∈ ids)) =
      (List.range d).filter (fun i => decide (i ∉ ids)) := by
    apply List.filter_congr; intro x _; simp
  rw [e] at h2; omega

theorem remove_shape (v r : Vec α) (ids : List Nat) (hv : Shaped v) (hs : v.data.length < W)
    (hn : ids.Nodup) (hi : ∀ i ∈ ids, i < v.dims.headD 0) (h : v.remove ids = .ok r) :
    Shaped r := by
  match hd : v.dims with
  | [] => simp only [remove, hd] at h; simp at h
  | d :: ds =>
    rw [hd] at hi
    simp only [List.headD_cons] at hi
    unfold Shaped at hv
    rw [hd, List.prod_cons] at hv
    rcases Nat.eq_zero_or_pos ds.prod with h0 | hp
    · -- nothing stored
      have hl : v.data = [] := List.length_eq_zero_iff.1 (by rw [hv, h0]; simp)
      simp only [remove, hd] at h
      rw [Res.bind_eq_ok] at h
      obtain ⟨data, h1, h2⟩ := h
      simp only [Res.ok.injEq] at h2
      subst h2
      simp only [Shaped, List.prod_cons, h0, Nat.mul_zero]
      cases hm : (ids.mergeSort (· ≤ ·)).reverse with
      | nil => rw [hm, hl, removeLoop] at h1; simp only [Res.ok.injEq] at h1; subst h1; rfl
      | cons i1 rest =>
        rw [hm, hl, removeLoop, if_neg (by simp)] at h1; simp at h1
    · have hdW : d < W := by
        have : d ≤ d * ds.prod := Nat.le_mul_of_pos_right _ hp
        omega
      have := C10_remove_partial v d ds ids hd hv hdW hp hn hi
      rw [this, Res.ok.injEq] at h
      subst h
      unfold Shaped
      simp only [List.prod_cons]
      rw [slices_length _ _ _ d hv (fun k hk => by simpa using List.mem_of_mem_filter hk), filter_not_mem_length d ids hn hi]

theorem foldr_map_zero (l : List Nat) (h : l ≠ []) : (l.map fun _ => 0).prod = 0 := by
  cases l with
  | nil => exact absurd rfl h
  | cons => simp

/-- invariant carried along a history -/
structure Inv (s : Store α) : Prop where
  shaped : ∀ x, Shaped (s x)
  fits : Fits s
  dims : ∀ x, (s x).dims ≠ []

theorem put_ok {s s' : Store α} {x : Nat} {r : Res (Vec α)} (h : put s x r = .ok s') :
    ∃ v, r = .ok v ∧ s' = Function.update s x v := by
  cases r <;> simp [put] at h ⊢
  exact h.symm

theorem update_inv {s : Store α} {x : Nat} {v : Vec α} (hs : Inv s) (hv : Shaped v)
    (hd : v.dims ≠ []) (hf : Fits (Function.update s x v)) : Inv (Function.update s x v) := by
  refine ⟨fun y => ?_, hf, fun y => ?_⟩
  · by_cases h : y = x
    · subst h; simpa using hv
    · rw [Function.update_of_ne h]; exact hs.shaped y
  · by_cases h : y = x
    · subst h; simpa using hd
    · rw [Function.update_of_ne h]; exact hs.dims y

theorem append_dims [Inhabited α] (n : Nat) (v w r : Vec α) (hv : v.dims ≠ []) (hw : w.dims ≠ [])
    (h : append n v w = .ok r ∨ prepend n v w = .ok r) : r.dims ≠ [] := by
  by_cases hv0 : v.data = []
  · simp only [append, prepend, if_pos hv0, Res.ok.injEq, or_self] at h; subst h; exact hw
  by_cases hw0 : w.data = []
  · simp only [append, prepend, if_neg hv0, if_pos hw0, Res.ok.injEq, or_self] at h; subst h; exact hv
  by_cases hz : v.dims.getD n 0 = 0 ∨ w.dims.getD n 0 = 0
  · simp only [append, prepend, if_neg hv0, if_neg hw0, if_pos hz] at h; simp at h
  simp only [append, prepend, if_neg hv0, if_neg hw0, if_neg hz] at h
  rcases h with h | h <;>
  · simp only [Res.bind_eq_ok] at h
    obtain ⟨-, -, a, ha, p, -, d1, hd1, q, -, d2, hd2, h⟩ := h
    simp only [Res.ok.injEq] at h
    subst h
    simp only [resize0, Res.bind_eq_ok] at ha
    obtain ⟨d, -, ha⟩ := ha
    simp only [Res.ok.injEq] at ha
    subst ha
    simpa using hv

theorem step_inv [Inhabited α] (s s' : Store α) (op : Op α) (hs : Inv s) (hl : Legal s op)
    (h : step s op = .ok s') (hf : Fits s') : Inv s' := by
  have hW : maxSize < W := by decide
  cases op with
  | construct x dims =>
    simp only [step] at h
    split at h
    · simp at h
    rename_i hne
    obtain ⟨v, h1, rfl⟩ := put_ok h
    have := resize0_shaped ⟨[], dims⟩ _ hl h1
    exact update_inv hs this.1 (by rw [this.2]; exact hne) hf
  | resize x dims =>
    simp only [step] at h
    split at h
    · simp at h
    rename_i hne
    obtain ⟨v, h1, rfl⟩ := put_ok h
    have := resize0_shaped { s x with dims := dims } _ hl h1
    exact update_inv hs this.1 (by rw [this.2]; exact hne) hf
  | clear x =>
    obtain ⟨v, h1, rfl⟩ := put_ok h
    simp only [Res.ok.injEq] at h1; subst h1
    exact update_inv hs (by rw [Shaped, clear, foldr_map_zero _ (hs.dims x)]; rfl)
      (by simpa [clear] using hs.dims x) hf
  | pushBack x a =>
    simp only [step] at h
    split at h
    · rename_i h1
      obtain ⟨d, hd⟩ := dim1 h1
      obtain ⟨v, h1, rfl⟩ := put_ok h
      simp only [Res.ok.injEq] at h1; subst h1
      have hsh := hs.shaped x
      have hft := hs.fits x
      simp only [Shaped, hd, List.prod_cons, List.prod_nil, Nat.mul_one] at hsh
      refine update_inv hs ?_ (by simp [pushBack, hd]) hf
      simp only [Shaped, pushBack, hd, List.length_append, List.length_cons, List.length_nil,
        List.prod_cons, List.prod_nil, Nat.mul_one]
      rw [Nat.mod_eq_of_lt (by omega), hsh]
    · simp at h
  | pushSlice x y =>
    obtain ⟨v, h1, rfl⟩ := put_ok h
    have hx := hs.shaped x
    have hy := hs.shaped y
    simp only [pushSlice] at h1
    split at h1
    · simp only [Res.ok.injEq] at h1; subst h1
      exact update_inv hs (by simpa [Shaped] using hy) (by simp) hf
    · rename_i h0
      match hd : (s x).dims with
      | [] => exact absurd hd (hs.dims x)
      | d :: ds =>
        rw [hd] at h1
        simp only at h1
        by_cases hc : ds = (s y).dims
        · rw [Res.check_pos hc, Res.ok_bind, Res.ok.injEq] at h1
          subst h1
          refine update_inv hs ?_ (by simp) hf
          have hp := pos_of_nonempty hx h0
          have hle := le_prod hp d (by rw [hd]; simp)
          have hfx := hs.fits x
          simp only [Shaped] at hx hy ⊢
          rw [List.length_append, hx, hy, ← hc, hd, List.prod_cons, List.prod_cons,
            Nat.mod_eq_of_lt (by rw [hx] at hfx; omega)]
          ring
        · rw [Res.check_neg hc] at h1; simp at h1
  | append n x y =>
    simp only [step] at h
    split at h
    · simp at h
    · obtain ⟨v, h1, rfl⟩ := put_ok h
      have h2 : maxSize + maxSize < W := by decide
      have := hs.fits x
      have := hs.fits y
      exact update_inv hs (append_shape n _ _ _ (hs.shaped x) (hs.shaped y) (by omega) (.inl h1))
        (append_dims n _ _ _ (hs.dims x) (hs.dims y) (.inl h1)) hf
  | prepend n x y =>
    simp only [step] at h
    split at h
    · simp at h
    · obtain ⟨v, h1, rfl⟩ := put_ok h
      have h2 : maxSize + maxSize < W := by decide
      have := hs.fits x
      have := hs.fits y
      exact update_inv hs (append_shape n _ _ _ (hs.shaped x) (hs.shaped y) (by omega) (.inr h1))
        (append_dims n _ _ _ (hs.dims x) (hs.dims y) (.inr h1)) hf
  | append1 x y =>
    simp only [step] at h
    split at h
    · rename_i h1
      obtain ⟨a, ha⟩ := dim1 h1.1
      obtain ⟨b, hb⟩ := dim1 h1.2
      split at h
      · simp at h
      · obtain ⟨v, h1, rfl⟩ := put_ok h
        simp only [Res.ok.injEq] at h1; subst h1
        have h2 : maxSize + maxSize < W := by decide
        have hx := hs.shaped x
        have hy := hs.shaped y
        have := hs.fits x
        have := hs.fits y
        simp only [Shaped, ha, hb, List.prod_cons, List.prod_nil, Nat.mul_one] at hx hy
        refine update_inv hs ?_ (by simp [append1]) hf
        simp only [Shaped, append1, ha, hb, List.getD_cons_zero, List.length_append, List.prod_cons,
          List.prod_nil, Nat.mul_one]
        rw [Nat.mod_eq_of_lt (by omega)]; omega
    · simp at h
  | prepend1 x y =>
    simp only [step] at h
    split at h
    · rename_i h1
      obtain ⟨a, ha⟩ := dim1 h1.1
      obtain ⟨b, hb⟩ := dim1 h1.2
      split at h
      · simp at h
      · obtain ⟨v, h1, rfl⟩ := put_ok h
        simp only [Res.ok.injEq] at h1; subst h1
        have h2 : maxSize + maxSize < W := by decide
        have hx := hs.shaped x
        have hy := hs.shaped y
        have := hs.fits x
        have := hs.fits y
        simp only [Shaped, ha, hb, List.prod_cons, List.prod_nil, Nat.mul_one] at hx hy
        refine update_inv hs ?_ (by simp [prepend1]) hf
        simp only [Shaped, prepend1, ha, hb, List.getD_cons_zero, List.length_append, List.prod_cons,
          List.prod_nil, Nat.mul_one]
        rw [Nat.mod_eq_of_lt (by omega)]; omega
    · simp at h
  | remove x ids =>
    obtain ⟨v, h1, rfl⟩ := put_ok h
    have := hs.fits x
    refine update_inv hs (remove_shape _ _ ids (hs.shaped x) (by omega) hl.1 hl.2 h1) ?_ hf
    simp only [remove] at h1
    split at h1
    · rw [Res.bind_eq_ok] at h1
      obtain ⟨_, _, h1⟩ := h1
      simp only [Res.ok.injEq] at h1
      subst h1; simp
    · simp at h1
  | reverse x =>
    obtain ⟨v, h1, rfl⟩ := put_ok h
    simp only [Res.ok.injEq] at h1; subst h1
    exact update_inv hs (by simpa [Shaped, reverse] using hs.shaped x) (hs.dims x) hf
  | shift x k =>
    obtain ⟨v, h1, rfl⟩ := put_ok h
    by_cases h0 : (s x).data = []
    · simp [shift, h0] at h1
    · obtain ⟨r, h2, h3, h4, -⟩ := C11_shift (s x) k h0
      rw [h1, Res.ok.injEq] at h2
      subst h2
      exact update_inv hs (by rw [Shaped, h3, h4]; exact hs.shaped x) (by rw [h3]; exact hs.dims x) hf
  | transpose x y =>
    obtain ⟨v, h1, rfl⟩ := put_ok h
    match hd : (s y).dims with
    | [n, m] =>
      obtain ⟨t, h2, h3, h4, -⟩ := C12_transpose (s y) n m hd (hs.shaped y)
      rw [h1, Res.ok.injEq] at h2
      subst h2
      exact update_inv hs h4 (by rw [h3]; simp) hf
    | [] => simp only [transpose, hd] at h1; simp at h1
    | [_] => simp only [transpose, hd] at h1; simp at h1
    | _ :: _ :: _ :: _ => simp only [transpose, hd] at h1; simp at h1
  | replicate x y args =>
    obtain ⟨v, h1, rfl⟩ := put_ok h
    simp only [Vec.replicate, Res.bind_eq_ok] at h1
    obtain ⟨u, h2, h3⟩ := h1
    have h4 := resize0_shaped ⟨[], args ++ (s y).dims⟩ _ hl h2
    split at h3
    · simp at h3
    · rename_i hp
      simp only [Res.ok.injEq] at h3
      subst h3
      refine update_inv hs ?_ (by simp [h4.2, hs.dims y]) hf
      have h5 := h4.1
      simp only [Shaped] at h5 ⊢
      rw [List.length_append, List.length_drop, ← h5]
      have : (replicateData (s y).data (u.data.length / (s y).data.length)).length =
          u.data.length / (s y).data.length * (s y).data.length := by simp [replicateData]
      rw [this]
      have := Nat.div_mul_le_self u.data.length (s y).data.length
      omega
  | reform x y dims =>
    simp only [step] at h
    split at h
    · simp at h
    rename_i hne
    obtain ⟨v, h1, rfl⟩ := put_ok h
    simp only [reform, foldl_prod] at h1
    have hl' : dims.prod < W := hl
    rw [Nat.mod_eq_of_lt hl'] at h1
    by_cases hc : (s y).data.length = dims.prod
    · rw [Res.check_pos hc, Res.ok_bind, Res.ok.injEq] at h1
      subst h1
      exact update_inv hs hc hne hf
    · rw [Res.check_neg hc] at h1; simp at h1
  | flatten x y =>
    obtain ⟨v, h1, rfl⟩ := put_ok h
    simp only [Res.ok.injEq] at h1; subst h1
    exact update_inv hs (by simp [Shaped, flatten]) (by simp [flatten]) hf
  | copy x y =>
    obtain ⟨v, h1, rfl⟩ := put_ok h
    simp only [Res.ok.injEq] at h1; subst h1
    exact update_inv hs (hs.shaped y) (hs.dims y) hf
  | moveConstruct x y =>
    simp only [step, Res.ok.injEq] at h
    subst h
    have hi : Inv (Function.update s y (s y).moveCtor.2) := by
      refine update_inv hs ?_ ?_ ?_
      · rw [Shaped, moveCtor, foldr_map_zero _ (hs.dims y)]; rfl
      · simpa [moveCtor] using hs.dims y
      · intro z
        by_cases hz : z = y
        · subst hz; simp [moveCtor, maxSize]
        · rw [Function.update_of_ne hz]; exact hs.fits z
    exact update_inv hi (hs.shaped y) (hs.dims y) hf
  | moveAssign x y => exact absurd hl id
  | write x i a =>
    simp only [step, Res.bind_eq_ok] at h
    obtain ⟨k, -, h⟩ := h
    obtain ⟨v, h1, rfl⟩ := put_ok h
    simp only [Res.ok.injEq] at h1; subst h1
    exact update_inv hs (by simpa [Shaped] using hs.shaped x) (hs.dims x) hf

/-! ## C01 -/

theorem reachable_inv [Inhabited α] (D : Nat → Nat) (hD : ∀ x, 0 < D x) (s : Store α)
    (h : Reachable D s) : Inv s := by
  induction h with
  | init =>
    refine ⟨fun x => ?_, fun x => by simp [Vec.empty, maxSize], fun x => ?_⟩
    · obtain ⟨k, hk⟩ := Nat.exists_eq_succ_of_ne_zero (Nat.pos_iff_ne_zero.1 (hD x))
      simp [Shaped, Vec.empty, hk, List.replicate_succ]
    · have := hD x
      simp only [Vec.empty, ne_eq, List.replicate_eq_nil_iff]; omega
  | step s s' op _ hl hs hf ih => exact step_inv s s' op ih hl hs hf

/-- C01: after any legal history every vector stores as many elements as the product of its
dimensions. Restrictions: `Legal` (see the refutations below for each of them). -/
theorem C01_shape_partial [Inhabited α] (D : Nat → Nat) (hD : ∀ x, 0 < D x) (s : Store α)
    (h : Reachable D s) (x : Nat) : (s x).data.length = (s x).dims.prod :=
  (reachable_inv D hD s h).shaped x

/-- A non-trivial reachable history: build a 2x2 vector, push a row. -/
example : ∃ s : Store Nat, Reachable (fun x => if x = 0 then 2 else 1) s ∧
    (s 0).dims = [3, 2] := by
  let s0 : Store Nat := fun x => Vec.empty (if x = 0 then 2 else 1)
  let s1 : Store Nat := Function.update s0 0 ⟨[0, 0, 0, 0], [2, 2]⟩
  let s2 : Store Nat := Function.update s1 1 ⟨[0, 0], [2]⟩
  let s3 : Store Nat := Function.update s2 0 ⟨[0, 0, 0, 0, 0, 0], [3, 2]⟩
  have h1 : Reachable (fun x => if x = 0 then 2 else 1) s1 := by
    refine .step s0 s1 (.construct 0 [2, 2]) .init (by unfold Legal; decide) rfl ?_
    intro x; by_cases hx : x = 0 <;> simp [s1, s0, hx, Vec.empty, maxSize]
  have h2 : Reachable (fun x => if x = 0 then 2 else 1) s2 := by
    refine .step s1 s2 (.construct 1 [2]) h1 (by unfold Legal; decide) rfl ?_
    intro x; by_cases hx : x = 0 <;> by_cases hy : x = 1 <;>
      simp [s2, s1, s0, hx, hy, Vec.empty, maxSize]
  refine ⟨s3, .step s2 s3 (.pushSlice 0 1) h2 trivial rfl ?_, rfl⟩
  intro x; by_cases hx : x = 0 <;> by_cases hy : x = 1 <;>
    simp [s3, s2, s1, s0, hx, hy, Vec.empty, maxSize]

/-- C01: a slice of the wrong shape is refused. -/
theorem C01_push_mismatch (v t : Vec α) (d : Nat) (ds : List Nat) (hv : v.dims = d :: ds)
    (h0 : v.data ≠ []) (h : ds ≠ t.dims) : v.pushSlice t = .abort := by
  simp only [pushSlice, if_neg h0, hv, Res.check_neg h]; rfl

example : (⟨[1, 2], [1, 2]⟩ : Vec Nat).pushSlice ⟨[1, 2, 3], [3]⟩ = .abort :=
  C01_push_mismatch _ _ 1 [2] rfl (by simp) (by simp)

/-- C01: reforming to a different number of elements is refused. -/
theorem C01_reform_mismatch (v : Vec α) (dims : List Nat) (hd : dims.prod < W)
    (h : v.data.length ≠ dims.prod) : v.reform dims = .abort := by
  simp only [reform, foldl_prod, Nat.mod_eq_of_lt hd, Res.check_neg h]; rfl

example : (⟨[1, 2], [2]⟩ : Vec Nat).reform [3] = .abort := C01_reform_mismatch _ _ (by decide) (by decide)

/-- Finding: with a repeated index `inplace_remove` breaks the invariant. -/
theorem C01_remove_refuted : ∃ v r : Vec Nat, Shaped v ∧ v.remove [3, 2, 2] = .ok r ∧ ¬ Shaped r :=
  ⟨⟨[10, 20, 30, 40, 50], [5]⟩, _, by unfold Shaped; decide, C10_duplicates_refuted, by unfold Shaped; decide⟩

/-- Finding: the size computed from the dimensions wraps: a vector advertised as `2^32 x 2^32` is
empty. -/
theorem C01_overflow_refuted :
    ∃ r : Vec Nat, ofDims [2 ^ 32, 2 ^ 32] = .ok r ∧ r.data = [] ∧ ¬ Shaped r :=
  ⟨⟨[], [2 ^ 32, 2 ^ 32]⟩, by decide, rfl, by unfold Shaped; decide⟩

/-- Finding: after a move assignment the source keeps its dimensions but holds no element. -/
theorem C01_moveAssign_refuted (v : Vec α) (hv : Shaped v) (h0 : v.data ≠ []) :
    ¬ Shaped v.moveAssign.2 := by
  unfold Shaped moveAssign
  simp only [List.length_nil]
  intro h
  apply h0; apply List.length_eq_zero_iff.1; rw [hv, ← h]

/-! ## C02 -/

/-- C02 for move construction: the new vector is the old one, the source is empty with zero
dimensions, and pushing values back gives exactly those. -/
theorem C02_move_construct (v : Vec α) (n : Nat) (hd : v.dims = [n]) (xs : List α)
    (hx : xs.length < W) :
    v.moveCtor.1 = v ∧ v.moveCtor.2.data = [] ∧ v.moveCtor.2.dims = [0] ∧
      xs.foldl pushBack v.moveCtor.2 = ⟨xs, [xs.length]⟩ := by
  refine ⟨rfl, rfl, by simp [moveCtor, hd], ?_⟩
  have key : ∀ (xs pre : List α), (pre ++ xs).length < W →
      xs.foldl pushBack ⟨pre, [pre.length]⟩ = ⟨pre ++ xs, [(pre ++ xs).length]⟩ := by
    intro xs
    induction xs with
    | nil => intro pre _; simp
    | cons x xs ih =>
      intro pre h
      rw [List.foldl_cons]
      have e : pushBack ⟨pre, [pre.length]⟩ x = (⟨pre ++ [x], [(pre ++ [x]).length]⟩ : Vec α) := by
        simp only [pushBack, List.length_append, List.length_cons, List.length_nil] at h ⊢
        rw [Nat.mod_eq_of_lt (by omega)]
      rw [e, ih (pre ++ [x]) (by simpa using h)]
      simp
  have e : v.moveCtor.2 = ⟨[], [([] : List α).length]⟩ := by simp [moveCtor, hd]
  rw [e, key xs [] (by simpa using hx)]
  simp

example : ([7, 8] : List Nat).foldl pushBack (⟨[1, 2, 3], [3]⟩ : Vec Nat).moveCtor.2 = ⟨[7, 8], [2]⟩ :=
  (C02_move_construct _ 3 rfl [7, 8] (by decide)).2.2.2

/-- C02 for any number of dimensions: all dimensions of the source are zero. -/
theorem C02_move_construct_dims (v : Vec α) :
    v.moveCtor.2.data = [] ∧ v.moveCtor.2.dims = List.replicate v.dims.length 0 := by
  simp [moveCtor, List.map_const']

/-- Finding: after a move assignment the source still reports its old dimensions, and pushing a
value gives a vector of one element that reports `n+1`. -/
theorem C02_move_assign_refuted (v : Vec α) (n : Nat) (a : α) (hd : v.dims = [n]) (hn : n + 1 < W) :
    v.moveAssign.2.data = [] ∧ v.moveAssign.2.dims = [n] ∧
      (v.moveAssign.2.pushBack a) = ⟨[a], [n + 1]⟩ := by
  simp [moveAssign, pushBack, hd, Nat.mod_eq_of_lt hn]

end Verif.Core.Vec
