import Verif.Core.Vectorize
/-!
# C169: calling a scalar function on vectors is calling it on each element
-/
namespace Verif.Core
open Verif
namespace Vectorize
variable {α β γ ε : Type}

/-- the size of a vector is the product of its dimensions -/
def Whole (v : Vec α) : Prop := v.data.length = v.dims.prod

theorem foldlM_append {ι : Type} {f : ι → Res β} {g : ι → β} :
    ∀ (l : List ι) (r : List β), (∀ i ∈ l, f i = .ok (g i)) →
      l.foldlM (fun r t => do let y ← f t; pure (r ++ [y])) r = Res.ok (r ++ l.map g) := by
  intro l
  induction l with
  | nil => intro r _; simp
  | cons a l ih =>
    intro r h
    rw [List.foldlM_cons, h a (by simp)]
    simp only [Res.ok_bind]
    rw [show (pure (r ++ [g a]) : Res (List β)) = .ok (r ++ [g a]) from rfl, Res.ok_bind, ih _ fun i hi => h i (by simp [hi])]; simp

theorem inPlace_ok {g : Nat → α → Res α} {y : Nat → α} (n : Nat) (l : List α) (hn : n = l.length)
    (h : ∀ i (hi : i < l.length), g i l[i] = .ok (y i)) :
    inPlace g (List.range n) l = .ok ((List.range n).map y) := by
  subst hn
  have key : ∀ m k (l' : List α), l'.length = l.length → m + k = l.length →
      (∀ i, k ≤ i → l'[i]? = l[i]?) → (∀ i, i < k → l'[i]? = some (y i)) →
      inPlace g (List.range' k m) l' = .ok ((List.range l.length).map y) := by
    intro m
    induction m with
    | zero =>
      intro k l' hl hk _ h2
      simp only [List.range'_zero, inPlace]
      congr 1
      apply List.ext_getElem?
      intro i
      by_cases hi : i < k
      · rw [h2 i hi]; simp [show i < l.length by omega]
      · rw [List.getElem?_eq_none (by omega), List.getElem?_eq_none (by simp; omega)]
    | succ m ih =>
      intro k l' hl hk h1 h2
      rw [List.range'_succ]
      have hkl : k < l.length := by omega
      have e : l'[k]'(by omega) = l[k] := by
        have := h1 k (le_refl k)
        rw [List.getElem?_eq_getElem (by omega), List.getElem?_eq_getElem hkl] at this
        exact Option.some.inj this
      simp only [inPlace]
      rw [Res.rd_lt (by omega : k < l'.length), Res.ok_bind, e, h k hkl, Res.ok_bind, wr,
        if_pos (by omega), Res.ok_bind]
      apply ih
      · simpa using hl
      · omega
      · intro i hi
        rw [List.getElem?_set_ne (by omega)]
        exact h1 i (by omega)
      · intro i hi
        by_cases hik : i = k
        · subst hik; rw [List.getElem?_set_self (by omega)]
        · rw [List.getElem?_set_ne (by omega)]; exact h2 i (by omega)
  rw [List.range_eq_range']
  rw [key l.length 0 l rfl (by omega) (fun _ _ => rfl) (by omega), List.range_eq_range']

theorem range_map_getElem {l : List α} {g : α → β} :
    (List.range l.length).attach.map (fun i => g (l[i.1]'(by simpa using i.2))) = l.map g := by
  apply List.ext_getElem?
  intro i
  by_cases hi : i < l.length
  · simp [hi]
  · rw [List.getElem?_eq_none (by simp; omega), List.getElem?_eq_none (by simp; omega)]

/-- **C169 (one vector).** A function that succeeds on every element gives, on a vector or on a
temporary that it overwrites, the vector of the values: same dimensions, element `i` is the value
on element `i`. -/
theorem C169_unary (f : α → Res β) (g : α → β) (v : Vec α) (h : ∀ t ∈ v.data, f t = .ok (g t)) :
    unary f v = .ok ⟨v.data.map g, v.dims⟩ := by
  unfold unary
  rw [foldlM_append (g := g) _ _ h]; rfl

/-- **C169 (one vector, temporary).** -/
theorem C169_unary_move (f : α → Res α) (g : α → α) (v : Vec α) (h : ∀ t ∈ v.data, f t = .ok (g t)) :
    unaryMove f v = .ok ⟨v.data.map g, v.dims⟩ := by
  unfold unaryMove
  cases hv : v.data with
  | nil => simp [inPlace]
  | cons a l =>
    rw [← hv]
    rw [inPlace_ok (y := fun i => g (v.data.getD i a)) _ _ rfl]
    · simp only [Res.ok_bind]
      congr 2
      apply List.ext_getElem?
      intro i
      by_cases hi : i < v.data.length
      · simp [hi]
      · rw [List.getElem?_eq_none (by simp; omega), List.getElem?_eq_none (by simp; omega)]
    · intro i hi
      rw [h _ (List.getElem_mem hi)]; simp [hi]

example : unaryMove (fun x : Nat => .ok (x * x)) ⟨[1, 2, 3, 4], [2, 2]⟩ = .ok ⟨[1, 4, 9, 16], [2, 2]⟩ ∧
    unary (fun x : Nat => .ok (x * x)) ⟨[1, 2, 3, 4], [2, 2]⟩ = .ok ⟨[1, 4, 9, 16], [2, 2]⟩ := by
  decide +kernel

/-- the vector of the values on pairs of elements -/
def zipVec (g : α → β → γ) (v1 : Vec α) (v2 : Vec β) : Vec γ :=
  ⟨List.zipWith g v1.data v2.data, v1.dims⟩

section binary
variable {v1 : Vec α} {v2 : Vec β}

theorem zip_range {g : α → β → γ} {l1 : List α} {l2 : List β} (h : l1.length = l2.length) (a : α) (b : β) :
    (List.range l1.length).map (fun i => g (l1.getD i a) (l2.getD i b)) = List.zipWith g l1 l2 := by
  apply List.ext_getElem?
  intro i
  by_cases hi : i < l1.length
  · have h2 : i < l2.length := by omega
    simp [hi, h2, List.getElem?_zipWith]
  · rw [List.getElem?_eq_none (by simp; omega), List.getElem?_eq_none (by simp; omega)]

/-- **C169 (two vectors).** Two vectors of the same dimensions: in each of the four overloads (either
of the arguments may be a temporary that is overwritten) the result has these dimensions and element
`i` is the value on the elements `i`. -/
theorem C169_binary (f : α → β → Res γ) (g : α → β → γ) (w1 : Whole v1) (w2 : Whole v2)
    (hd : v1.dims = v2.dims) (h : ∀ a ∈ v1.data, ∀ b ∈ v2.data, f a b = .ok (g a b)) :
    binary f v1 v2 = .ok (zipVec g v1 v2) := by
  have hl : v1.data.length = v2.data.length := by rw [w1, w2, hd]
  unfold binary
  rw [Res.check_pos hd, Res.ok_bind]
  cases hv : v1.data with
  | nil => simp [zipVec, hv]
  | cons a l1 =>
    cases hv2 : v2.data with
    | nil => rw [hv, hv2] at hl; simp at hl
    | cons b l2 =>
    rw [← hv, ← hv2]
    have := foldlM_append (f := fun i => do
        let a ← Res.rd v1.data i
        let b ← Res.rd v2.data i
        f a b) (g := fun i => g (v1.data.getD i a) (v2.data.getD i b)) (List.range v1.data.length) [] (by
      intro i hi
      have hi : i < v1.data.length := by simpa using hi
      have h2 : i < v2.data.length := by omega
      simp only [Res.rd_lt hi, Res.rd_lt h2, Res.ok_bind]
      rw [h _ (List.getElem_mem _) _ (List.getElem_mem _)]; simp [hi, h2])
    simp only [bind_assoc] at this
    rw [this, Res.ok_bind, List.nil_append, zip_range hl]; rfl

theorem C169_binary_move1 (f : α → β → Res α) (g : α → β → α) (w1 : Whole v1) (w2 : Whole v2)
    (hd : v1.dims = v2.dims) (h : ∀ a ∈ v1.data, ∀ b ∈ v2.data, f a b = .ok (g a b)) :
    binaryMove1 f v1 v2 = .ok (zipVec g v1 v2) := by
  have hl : v1.data.length = v2.data.length := by rw [w1, w2, hd]
  unfold binaryMove1
  rw [Res.check_pos hd, Res.ok_bind]
  cases hv : v1.data with
  | nil => simp [zipVec, hv, inPlace]
  | cons a l1 =>
    cases hv2 : v2.data with
    | nil => rw [hv, hv2] at hl; simp at hl
    | cons b l2 =>
    rw [← hv, ← hv2]
    rw [inPlace_ok (y := fun i => g (v1.data.getD i a) (v2.data.getD i b)) _ _ rfl, Res.ok_bind,
      zip_range hl]
    · rfl
    · intro i hi
      have h2 : i < v2.data.length := by omega
      simp only [Res.rd_lt h2, Res.ok_bind]
      rw [h _ (List.getElem_mem _) _ (List.getElem_mem _)]; simp [hi, h2]

theorem C169_binary_move2 (f : α → β → Res β) (g : α → β → β) (w1 : Whole v1) (w2 : Whole v2)
    (hd : v1.dims = v2.dims) (h : ∀ a ∈ v1.data, ∀ b ∈ v2.data, f a b = .ok (g a b)) :
    binaryMove2 f v1 v2 = .ok (zipVec g v1 v2) := by
  have hl : v1.data.length = v2.data.length := by rw [w1, w2, hd]
  unfold binaryMove2
  rw [Res.check_pos hd, Res.ok_bind]
  cases hv : v1.data with
  | nil =>
    have : v2.data = [] := by rw [hv] at hl; exact List.eq_nil_of_length_eq_zero hl.symm
    simp [zipVec, hv, inPlace, this, hd]
  | cons a l1 =>
    cases hv2 : v2.data with
    | nil => rw [hv, hv2] at hl; simp at hl
    | cons b l2 =>
    rw [← hv, ← hv2]
    rw [inPlace_ok (y := fun i => g (v1.data.getD i a) (v2.data.getD i b)) _ _ hl, Res.ok_bind,
      zip_range hl]
    · simp [zipVec, hd]
    · intro i hi
      have h1 : i < v1.data.length := by omega
      simp only [Res.rd_lt h1, Res.ok_bind]
      rw [h _ (List.getElem_mem _) _ (List.getElem_mem _)]; simp [hi, h1]

/-- **C169 (mismatch).** Two vectors of different dimensions are refused by every overload, also
when they have as many elements. -/
theorem C169_mismatch (hd : v1.dims ≠ v2.dims) :
    (∀ f : α → β → Res γ, binary f v1 v2 = .abort) ∧ (∀ f : α → β → Res α, binaryMove1 f v1 v2 = .abort) ∧
    (∀ f : α → β → Res β, binaryMove2 f v1 v2 = .abort) := by
  refine ⟨fun f => ?_, fun f => ?_, fun f => ?_⟩
  · unfold binary; rw [Res.check_neg hd]; rfl
  · unfold binaryMove1; rw [Res.check_neg hd]; rfl
  · unfold binaryMove2; rw [Res.check_neg hd]; rfl

example : binaryMove2 (fun a b : Nat => .ok (a + 2 * b)) ⟨[1, 2, 3], [3]⟩ ⟨[10, 20, 30], [3]⟩ =
    .ok ⟨[21, 42, 63], [3]⟩ ∧
    binary (fun a b : Nat => .ok (a + 2 * b)) ⟨[1, 2], [1, 2]⟩ ⟨[10, 20], [2, 1]⟩ = .abort := by
  decide +kernel

end binary

/-- **C169 (scalar and vector).** -/
theorem C169_scalar (f : α → β → Res γ) (g : α → β → γ) (a : α) (v : Vec β)
    (h : ∀ b ∈ v.data, f a b = .ok (g a b)) :
    scalarVec f a v = .ok ⟨v.data.map (g a), v.dims⟩ := by
  unfold scalarVec
  cases hv : v.data with
  | nil => simp
  | cons b l =>
    rw [← hv]
    have := foldlM_append (f := fun i => do
        let b ← Res.rd v.data i
        f a b) (g := fun i => g a (v.data.getD i b)) (List.range v.data.length) [] (by
      intro i hi
      have hi : i < v.data.length := by simpa using hi
      simp only [Res.rd_lt hi, Res.ok_bind]
      rw [h _ (List.getElem_mem _)]; simp [hi])
    simp only [bind_assoc] at this
    rw [this, Res.ok_bind, List.nil_append]
    congr 2
    apply List.ext_getElem?
    intro i
    by_cases hi : i < v.data.length
    · simp [hi]
    · rw [List.getElem?_eq_none (by simp; omega), List.getElem?_eq_none (by simp; omega)]

theorem C169_scalar_move (f : α → β → Res β) (g : α → β → β) (a : α) (v : Vec β)
    (h : ∀ b ∈ v.data, f a b = .ok (g a b)) :
    scalarVecMove f a v = .ok ⟨v.data.map (g a), v.dims⟩ :=
  C169_unary_move (f a) (g a) v h

theorem firstLoop_ok {f : α → ε → Res (β × ε)} {y : Nat → β} {e : ε} (t : List α)
    (h : ∀ i (hi : i < t.length), f t[i] e = .ok (y i, e)) (r : List β) (hr : r.length = t.length) :
    firstLoop f t (List.range t.length) e r = .ok ((List.range t.length).map y) := by
  have key : ∀ m k (r : List β), r.length = t.length → m + k = t.length →
      (∀ i, i < k → r[i]? = some (y i)) →
      firstLoop f t (List.range' k m) e r = .ok ((List.range t.length).map y) := by
    intro m
    induction m with
    | zero =>
      intro k r hl hk h2
      simp only [List.range'_zero, firstLoop]
      congr 1
      apply List.ext_getElem?
      intro i
      by_cases hi : i < k
      · rw [h2 i hi]; simp [show i < t.length by omega]
      · rw [List.getElem?_eq_none (by omega), List.getElem?_eq_none (by simp; omega)]
    | succ m ih =>
      intro k r hl hk h2
      rw [List.range'_succ]
      simp only [firstLoop]
      rw [Res.rd_lt (by omega : k < t.length), Res.ok_bind, h k (by omega), Res.ok_bind, wr,
        if_pos (by omega), Res.ok_bind]
      apply ih
      · simpa using hl
      · omega
      · intro i hi
        by_cases hik : i = k
        · subst hik; rw [List.getElem?_set_self (by omega)]
        · rw [List.getElem?_set_ne (by omega)]; exact h2 i (by omega)
  have := key t.length 0 r hr (by omega) (by omega)
  rwa [← List.range_eq_range'] at this

/-- **C169 (`vectorize_lambda_first`).** When the lambda leaves its extra arguments as they are, each
element of the result is its value on the element and these arguments. What is missing: the lambda
must also see the same extra arguments in every call when it takes them by value, see
`C169_forward_refuted`. -/
theorem C169_lambda_first_partial [Inhabited β] (f : α → ε → Res (β × ε)) (g : α → ε → β) (t : Vec α) (e : ε)
    (w : Whole t) (h : ∀ x ∈ t.data, f x e = .ok (g x e, e)) :
    lambdaFirst f t e = .ok ⟨t.data.map (g · e), t.dims⟩ := by
  unfold lambdaFirst
  cases hv : t.data with
  | nil =>
    have : t.dims.prod = 0 := by rw [← w, hv]; rfl
    simp [firstLoop, this]
  | cons a l =>
    rw [← hv, firstLoop_ok (y := fun i => g (t.data.getD i a) e) _ _ _ (by simpa using w.symm), Res.ok_bind]
    · congr 2
      apply List.ext_getElem?
      intro i
      by_cases hi : i < t.data.length
      · simp [hi]
      · rw [List.getElem?_eq_none (by simp; omega), List.getElem?_eq_none (by simp; omega)]
    · intro i hi
      rw [h _ (List.getElem_mem hi)]; simp [hi]

example : lambdaFirst (fun (x : Nat) (e : List Nat) => .ok (x + e.sum, e)) ⟨[1, 2, 3], [3]⟩ [10, 20] =
    .ok ⟨[31, 32, 33], [3]⟩ := by decide +kernel

/-- **C169 (refuted).** The extra arguments are forwarded in every turn of the loop: a lambda
`[](double x, vec1d e) { return x + total(e); }` that takes a vector by value, called with a
temporary vector, gets it in the first call only, and an empty vector afterwards. -/
theorem C169_forward_refuted :
    lambdaFirst (byValue (fun (x : Nat) (e : List Nat) => x + e.sum) []) ⟨[1, 2, 3], [3]⟩ [10, 20] =
      .ok ⟨[31, 2, 3], [3]⟩ := by decide +kernel

section all

/-- the vectors among the arguments all have dimensions `d`, and there is at least one -/
def Agree (d : List Nat) (A : List (Arg α)) : Prop :=
  (∃ v, .vec v ∈ A) ∧ ∀ v, .vec v ∈ A → v.dims = d ∧ Whole v

theorem checkDims_some (d : List Nat) : ∀ A : List (Arg α), (∀ v, .vec v ∈ A → v.dims = d) →
    checkDims (some d) A = .ok (some d)
  | [], _ => rfl
  | .scalar a :: A, h => checkDims_some d A fun v hv => h v (by simp [hv])
  | .vec v :: A, h => by
    rw [checkDims, Res.check_pos (h v (by simp)).symm, Res.ok_bind]
    exact checkDims_some d A fun v hv => h v (by simp [hv])

theorem checkDims_none (d : List Nat) : ∀ A : List (Arg α), (∃ v, .vec v ∈ A) →
    (∀ v, .vec v ∈ A → v.dims = d) → checkDims none A = .ok (some d)
  | [], h, _ => by simp at h
  | .scalar a :: A, h, h2 => by
    rw [checkDims]
    exact checkDims_none d A (by simpa using h) fun v hv => h2 v (by simp [hv])
  | .vec v :: A, _, h => by
    rw [checkDims, h v (by simp)]
    exact checkDims_some d A fun v hv => h v (by simp [hv])

theorem checkDims_some_abort (d : List Nat) : ∀ A : List (Arg α), (∃ v, .vec v ∈ A ∧ v.dims ≠ d) →
    checkDims (some d) A = .abort
  | [], h => by simp at h
  | .scalar a :: A, h => by
    rw [checkDims]
    exact checkDims_some_abort d A (by simpa using h)
  | .vec v :: A, h => by
    rw [checkDims]
    by_cases hv : d = v.dims
    · rw [Res.check_pos hv, Res.ok_bind]
      apply checkDims_some_abort d A
      obtain ⟨w, hw, hn⟩ := h
      rcases List.mem_cons.1 hw with e | e
      · cases e; exact absurd hv.symm hn
      · exact ⟨w, e, hn⟩
    · rw [Res.check_neg hv]; rfl

theorem checkDims_none_abort : ∀ A : List (Arg α), (∃ v w, .vec v ∈ A ∧ .vec w ∈ A ∧ v.dims ≠ w.dims) →
    checkDims none A = .abort
  | [], h => by simp at h
  | .scalar a :: A, h => by
    rw [checkDims]
    exact checkDims_none_abort A (by simpa using h)
  | .vec u :: A, h => by
    rw [checkDims]
    apply checkDims_some_abort
    obtain ⟨v, w, hv, hw, hn⟩ := h
    by_cases e : v.dims = u.dims
    · refine ⟨w, ?_, fun h => hn (e.trans h.symm)⟩
      rcases List.mem_cons.1 hw with e' | e'
      · cases e'; exact absurd e hn
      · exact e'
    · refine ⟨v, ?_, e⟩
      rcases List.mem_cons.1 hv with e' | e'
      · cases e'; exact absurd rfl e
      · exact e'

variable (g : List α → β × List α) (A : List (Arg α))

/-- what the parameters hold after the calls `0 .. i-1` -/
def before [Inhabited α] : Nat → List α
  | 0 => A.map fun | .scalar a => a | .vec _ => default
  | i + 1 => (g (List.zipWith (fun a p => match a with | .scalar _ => p | .vec v => v.data.getD i p) A
      (before i))).2

/-- the parameters of call `i` -/
def params [Inhabited α] (i : Nat) : List α :=
  List.zipWith (fun a p => match a with | .scalar _ => p | .vec v => v.data.getD i p) A (before g A i)

variable {g A}

theorem before_length [Inhabited α] (hg : ∀ xs, xs.length = A.length → (g xs).2.length = xs.length) :
    ∀ i, (before g A i).length = A.length
  | 0 => by simp [before]
  | i + 1 => by
    have := before_length hg i
    rw [before, hg] <;> simp [this]

theorem params_length [Inhabited α] (hg : ∀ xs, xs.length = A.length → (g xs).2.length = xs.length) (i : Nat) :
    (params g A i).length = A.length := by
  simp [params, before_length hg i]

/-- the arguments after `i` calls -/
def After [Inhabited α] (g : List α → β × List α) (A : List (Arg α)) (n i : Nat) (S : List (Arg α)) : Prop :=
  S.length = A.length ∧
  (∀ (k : Nat) (a : α), A[k]? = some (Arg.scalar a) → S[k]? = ((before g A i)[k]?).map Arg.scalar) ∧
  ∀ (k : Nat) (v : Vec α), A[k]? = some (Arg.vec v) → ∃ w : Vec α, S[k]? = some (Arg.vec w) ∧ w.dims = v.dims ∧
    w.data.length = n ∧ ∀ j < n, w.data[j]? = if j < i then (g (params g A j)).2[k]? else v.data[j]?

theorem call_ok [Inhabited α] {f : List α → Res (β × List α)} {n i : Nat} {S : List (Arg α)}
    (hf : ∀ xs, xs.length = A.length → f xs = .ok (g xs))
    (hg : ∀ xs, xs.length = A.length → (g xs).2.length = xs.length)
    (hn : ∀ v, .vec v ∈ A → v.data.length = n) (hi : i < n) (hS : After g A n i S) :
    ∃ S', call f i S = .ok ((g (params g A i)).1, S') ∧ After g A n (i + 1) S' := by
  obtain ⟨hl, hs, hv⟩ := hS
  have e : S.mapM (get i) = .ok (params g A i) := by
    apply Res.mapM_getElem (by rw [params_length hg, hl])
    intro k hk hr
    have hkA : k < A.length := by omega
    have hkb : k < (before g A i).length := by rw [before_length hg]; exact hkA
    cases hA : A[k] with
    | scalar a =>
      have := hs k a (by rw [List.getElem?_eq_getElem hkA, hA])
      rw [List.getElem?_eq_getElem hk, List.getElem?_eq_getElem hkb] at this
      simp only [Option.map_some, Option.some.injEq] at this
      rw [this, get]
      simp [params, hA]
    | vec v =>
      obtain ⟨w, h1, _, h3, h4⟩ := hv k v (by rw [List.getElem?_eq_getElem hkA, hA])
      rw [List.getElem?_eq_getElem hk] at h1
      simp only [Option.some.injEq] at h1
      rw [h1, get]
      have h4 := h4 i hi
      rw [if_neg (lt_irrefl i)] at h4
      have hvl : v.data.length = n := hn v (by rw [← hA]; exact List.getElem_mem hkA)
      have hiv : i < v.data.length := by omega
      rw [Res.rd_eq_ok, h4]
      simp [params, hA, hiv]
  refine ⟨List.zipWith (put i) S (g (params g A i)).2, ?_, ?_, ?_, ?_⟩
  · unfold call
    rw [e, Res.ok_bind, hf _ (params_length hg i)]; rfl
  · rw [List.length_zipWith, hg _ (params_length hg i), params_length hg, hl]; simp
  · intro k a hA
    have hkA : k < A.length := by
      by_contra h; rw [List.getElem?_eq_none (by omega)] at hA; cases hA
    have hkb : k < (before g A i).length := by rw [before_length hg]; exact hkA
    have := hs k a hA
    rw [List.getElem?_eq_getElem hkb] at this
    rw [List.getElem?_zipWith, this]
    have e2 : before g A (i + 1) = (g (params g A i)).2 := rfl
    rw [e2]
    simp only [Option.map_some]
    cases (g (params g A i)).2[k]? <;> rfl
  · intro k v hA
    have hkA : k < A.length := by
      by_contra h; rw [List.getElem?_eq_none (by omega)] at hA; cases hA
    obtain ⟨w, h1, h2, h3, h4⟩ := hv k v hA
    have hkg : k < (g (params g A i)).2.length := by rw [hg _ (params_length hg i), params_length hg]; exact hkA
    refine ⟨{ w with data := w.data.set i (g (params g A i)).2[k] }, ?_, h2, by simpa using h3, ?_⟩
    · rw [List.getElem?_zipWith, h1, List.getElem?_eq_getElem hkg]; rfl
    · intro j hj
      by_cases hij : j = i
      · subst hij
        rw [List.getElem?_set_self (by omega), if_pos (by omega), List.getElem?_eq_getElem hkg]
      · rw [List.getElem?_set_ne (by omega), h4 j hj]
        by_cases hji : j < i
        · rw [if_pos hji, if_pos (by omega)]
        · rw [if_neg hji, if_neg (by omega)]

theorem callLoop_ok [Inhabited α] {f : List α → Res (β × List α)} {n : Nat}
    (hf : ∀ xs, xs.length = A.length → f xs = .ok (g xs))
    (hg : ∀ xs, xs.length = A.length → (g xs).2.length = xs.length)
    (hn : ∀ v, .vec v ∈ A → v.data.length = n) :
    ∀ m k (S : List (Arg α)) (r : List β), m + k = n → r.length = n → After g A n k S →
      (∀ i, i < k → r[i]? = some (g (params g A i)).1) →
      ∃ S', callLoop f (List.range' k m) S r =
        .ok ((List.range n).map fun i => (g (params g A i)).1, S') ∧ After g A n n S' := by
  intro m
  induction m with
  | zero =>
    intro k S r hk hr hS h
    have : k = n := by omega
    subst this
    refine ⟨S, ?_, hS⟩
    simp only [List.range'_zero, callLoop]
    congr 2
    apply List.ext_getElem?
    intro i
    by_cases hi : i < k
    · rw [h i hi]; simp [hi]
    · rw [List.getElem?_eq_none (by omega), List.getElem?_eq_none (by simp; omega)]
  | succ m ih =>
    intro k S r hk hr hS h
    rw [List.range'_succ]
    obtain ⟨S', h1, h2⟩ := call_ok hf hg hn (by omega) hS
    obtain ⟨S'', h3, h4⟩ := ih (k + 1) S' (r.set k (g (params g A k)).1) (by omega) (by simpa using hr) h2 (by
      intro i hi
      by_cases hik : i = k
      · subst hik; rw [List.getElem?_set_self (by omega)]
      · rw [List.getElem?_set_ne (by omega)]; exact h i (by omega))
    refine ⟨S'', ?_, h4⟩
    simp only [callLoop]
    rw [h1, Res.ok_bind, wr, if_pos (by omega), Res.ok_bind]
    exact h3

theorem after_zero [Inhabited α] {n : Nat} (hn : ∀ v, .vec v ∈ A → v.data.length = n) : After g A n 0 A := by
  refine ⟨rfl, ?_, ?_⟩
  · intro k a h
    simp [before, h]
  · intro k v h
    exact ⟨v, h, rfl, hn v (List.mem_of_getElem? h), fun j _ => by simp⟩

/-- what a call of a vectorised lambda does, told without the loop: there are parameter lists, one
for each position of the vectors, such that a vector argument contributes its element of that
position, and a scalar argument what the previous call left in it; a scalar (vector) argument ends
with what the last call (the call of that position) left in it. `g` is the scalar function: its
value, and the contents of its parameters afterwards. -/
structure Spec (g : List α → β × List α) (A : List (Arg α)) (n : Nat) (P : Nat → List α)
    (A' : List (Arg α)) : Prop where
  length : ∀ i < n, (P i).length = A.length
  vec : ∀ (k : Nat) (v : Vec α), A[k]? = some (Arg.vec v) → ∀ i < n, (P i)[k]? = v.data[i]?
  first : ∀ (k : Nat) (a : α), A[k]? = some (Arg.scalar a) → 0 < n → (P 0)[k]? = some a
  next : ∀ (k : Nat) (a : α), A[k]? = some (Arg.scalar a) → ∀ i, i + 1 < n → (P (i + 1))[k]? = (g (P i)).2[k]?
  args : A'.length = A.length
  out : ∀ (k : Nat) (v : Vec α), A[k]? = some (Arg.vec v) → ∃ w : Vec α, A'[k]? = some (Arg.vec w) ∧ w.dims = v.dims ∧
    w.data.length = n ∧ ∀ i < n, w.data[i]? = (g (P i)).2[k]?
  last : ∀ (k : Nat) (a : α), A[k]? = some (Arg.scalar a) → ∃ b, A'[k]? = some (Arg.scalar b) ∧
    some b = if n = 0 then some a else (g (P (n - 1))).2[k]?

theorem spec_of_after [Inhabited α] {n : Nat} {A' : List (Arg α)}
    (hg : ∀ xs, xs.length = A.length → (g xs).2.length = xs.length)
    (hn : ∀ v, .vec v ∈ A → v.data.length = n) (h : After g A n n A') :
    Spec g A n (params g A) A' := by
  obtain ⟨h1, h2, h3⟩ := h
  have lt : ∀ {k : Nat} {x : Arg α}, A[k]? = some x → k < A.length := by
    intro k x hA; by_contra h; rw [List.getElem?_eq_none (by omega)] at hA; cases hA
  have par : ∀ (k : Nat) (a : α) (i : Nat), A[k]? = some (Arg.scalar a) → (params g A i)[k]? = (before g A i)[k]? := by
    intro k a i hA
    rw [params, List.getElem?_zipWith, hA]
    cases (before g A i)[k]? <;> rfl
  refine ⟨fun i _ => params_length hg i, ?_, ?_, ?_, h1, ?_, ?_⟩
  · intro k v hA i hi
    have hb : k < (before g A i).length := by rw [before_length hg]; exact lt hA
    have hvl := hn v (List.mem_of_getElem? hA)
    rw [params, List.getElem?_zipWith, hA, List.getElem?_eq_getElem hb]
    simp [show i < v.data.length by omega]
  · intro k a hA _
    rw [par k a 0 hA]; simp [before, hA]
  · intro k a hA i _
    rw [par k a _ hA]; rfl
  · intro k v hA
    obtain ⟨w, a1, a2, a3, a4⟩ := h3 k v hA
    exact ⟨w, a1, a2, a3, fun i hi => by rw [a4 i hi, if_pos hi]⟩
  · intro k a hA
    have hb : k < (before g A n).length := by rw [before_length hg]; exact lt hA
    refine ⟨(before g A n)[k], ?_, ?_⟩
    · rw [h2 k a hA, List.getElem?_eq_getElem hb]; rfl
    · rw [← List.getElem?_eq_getElem hb]
      cases n with
      | zero => simp [before, hA]
      | succ n => simp only [Nat.succ_ne_zero, if_false]; rfl

/-- **C169 (`vectorize_lambda`).** Any mixture of scalars and vectors of the same dimensions, a
lambda that may assign to its parameters, and any order of evaluation of the checks: the call
returns the vector of the values with the common dimensions, position after position, as `Spec`
says; every vector is read and written at its own position only. -/
theorem C169_lambda [Inhabited α] [Inhabited β] (f : List α → Res (β × List α)) {order : List (Arg α)} {d : List Nat}
    (hf : ∀ xs, xs.length = A.length → f xs = .ok (g xs))
    (hg : ∀ xs, xs.length = A.length → (g xs).2.length = xs.length)
    (hd : Agree d A) (ho : order.Perm A) :
    ∃ P A', lambdaAll f A order = .ok (⟨(List.range d.prod).map fun i => (g (P i)).1, d⟩, A') ∧
      Spec g A d.prod P A' := by
  have hn : ∀ v, .vec v ∈ A → v.data.length = d.prod := fun v hv => by
    have := hd.2 v hv; rw [this.2, this.1]
  obtain ⟨A', h1, h2⟩ := callLoop_ok hf hg hn d.prod 0 A (List.replicate d.prod default) (by omega) (by simp)
    (after_zero hn) (by omega)
  refine ⟨params g A, A', ?_, spec_of_after hg hn h2⟩
  unfold lambdaAll
  rw [checkDims_none d order]
  · rw [Res.ok_bind]
    simp only
    rw [List.range_eq_range', h1, ← List.range_eq_range']; rfl
  · obtain ⟨v, hv⟩ := hd.1; exact ⟨v, ho.mem_iff.2 hv⟩
  · exact fun v hv => (hd.2 v (ho.mem_iff.1 hv)).1

theorem voidLoop_eq (f : List α → Res (List α)) : ∀ is (S : List (Arg α)) (r : List Unit),
    (∀ i ∈ is, i < r.length) →
    (callLoop (fun xs => (f xs).map fun y => ((), y)) is S r).map (·.2) = voidLoop f is S
  | [], _, _, _ => rfl
  | i :: is, S, r, h => by
    simp only [callLoop, voidLoop, call]
    cases S.mapM (get i) <;> try rfl
    simp only [Res.ok_bind]
    cases f _ <;> try rfl
    simp only [Res.map_ok, Res.ok_bind]
    rw [wr, if_pos (h i (by simp)), Res.ok_bind]
    exact voidLoop_eq f is _ _ (by intro j hj; simpa using h j (by simp [hj]))

theorem foldl_mul_prod (d : List Nat) : ∀ s, d.foldl (· * ·) s = s * d.prod := by
  induction d with
  | nil => simp
  | cons a d ih => intro s; rw [List.foldl_cons, ih, List.prod_cons, Nat.mul_assoc]

/-- **C169 (lambda without value).** -/
theorem C169_lambda_void [Inhabited α] (f : List α → Res (List α)) (u : List α → List α) {order : List (Arg α)}
    {d : List Nat} (hf : ∀ xs, xs.length = A.length → f xs = .ok (u xs))
    (hu : ∀ xs, xs.length = A.length → (u xs).length = xs.length)
    (hd : Agree d A) (ho : order.Perm A) :
    ∃ P A', lambdaVoid f A order = .ok A' ∧ Spec (fun xs => ((), u xs)) A d.prod P A' := by
  have hn : ∀ v, .vec v ∈ A → v.data.length = d.prod := fun v hv => by
    have := hd.2 v hv; rw [this.2, this.1]
  obtain ⟨A', h1, h2⟩ := callLoop_ok (g := fun xs => ((), u xs)) (f := fun xs => (f xs).map fun y => ((), y))
    (fun xs h => by rw [hf xs h]; rfl) hu hn d.prod 0 A (List.replicate d.prod default) (by omega) (by simp)
    (after_zero hn) (by omega)
  refine ⟨params _ A, A', ?_, spec_of_after hu hn h2⟩
  unfold lambdaVoid
  rw [checkDims_none d order]
  · rw [Res.ok_bind]
    simp only
    rw [foldl_mul_prod, Nat.one_mul, ← voidLoop_eq f _ A (List.replicate d.prod ()) (by simp), List.range_eq_range', h1]
    rfl
  · obtain ⟨v, hv⟩ := hd.1; exact ⟨v, ho.mem_iff.2 hv⟩
  · exact fun v hv => (hd.2 v (ho.mem_iff.1 hv)).1

/-- **C169 (constant arguments).** A lambda that does not assign to its parameters: the arguments are
unchanged and element `i` is the value on the elements `i` of the vectors and the scalars. -/
theorem C169_lambda_pure [Inhabited α] [Inhabited β] (h : List α → β) {order : List (Arg α)} {d : List Nat}
    (hd : Agree d A) (ho : order.Perm A) :
    ∃ P : Nat → List α, (∀ i < d.prod, A.mapM (get i) = .ok (P i)) ∧
      lambdaAll (fun xs => .ok (h xs, xs)) A order = .ok (⟨(List.range d.prod).map fun i => h (P i), d⟩, A) := by
  obtain ⟨P, A', h1, h2⟩ := C169_lambda (g := fun xs => (h xs, xs)) (fun xs => .ok (h xs, xs)) (fun _ _ => rfl)
    (fun _ _ => rfl) hd ho
  have sc : ∀ i < d.prod, ∀ (k : Nat) (a : α), A[k]? = some (Arg.scalar a) → (P i)[k]? = some a := by
    intro i
    induction i with
    | zero => intro hi k a hA; exact h2.first k a hA hi
    | succ i ih => intro hi k a hA; rw [h2.next k a hA i hi]; exact ih (by omega) k a hA
  have e : A' = A := by
    apply List.ext_getElem?
    intro k
    cases hA : A[k]? with
    | none => rw [List.getElem?_eq_none_iff] at hA; rw [List.getElem?_eq_none (by rw [h2.args]; exact hA)]
    | some x =>
      cases x with
      | scalar a =>
        obtain ⟨b, b1, b2⟩ := h2.last k a hA
        rw [b1]
        by_cases hn : d.prod = 0
        · rw [if_pos hn] at b2; cases b2; rfl
        · rw [if_neg hn, sc _ (by omega) k a hA] at b2; cases b2; rfl
      | vec v =>
        obtain ⟨w, w1, w2, w3, w4⟩ := h2.out k v hA
        rw [w1]
        have hv := hd.2 v (List.mem_of_getElem? hA)
        have : w.data = v.data := by
          apply List.ext_getElem?
          intro i
          by_cases hi : i < d.prod
          · rw [w4 i hi]; exact h2.vec k v hA i hi
          · rw [List.getElem?_eq_none (by omega), List.getElem?_eq_none (by rw [hv.2, hv.1]; omega)]
        obtain ⟨wd, wdim⟩ := w
        obtain ⟨vd, vdim⟩ := v
        simp only at this w2
        rw [this, w2]
  refine ⟨P, ?_, by rw [h1, e]⟩
  intro i hi
  apply Res.mapM_getElem (h2.length i hi)
  intro k hk hr
  cases hA : A[k] with
  | scalar a =>
    have := sc i hi k a (by rw [List.getElem?_eq_getElem hk, hA])
    rw [List.getElem?_eq_getElem hr] at this
    rw [Option.some.inj this]; rfl
  | vec v =>
    have := h2.vec k v (by rw [List.getElem?_eq_getElem hk, hA]) i hi
    rw [List.getElem?_eq_getElem hr] at this
    rw [get, Res.rd_eq_ok, ← this]

/-- **C169 (mismatch in a lambda).** Two vectors of different dimensions among the arguments: the
call stops, before the lambda is called, whatever the order of evaluation. -/
theorem C169_lambda_mismatch [Inhabited β] (f : List α → Res (β × List α)) (f' : List α → Res (List α))
    {order : List (Arg α)} (ho : order.Perm A) {v w : Vec α} (hv : .vec v ∈ A) (hw : .vec w ∈ A)
    (hd : v.dims ≠ w.dims) :
    lambdaAll f A order = .abort ∧ lambdaVoid f' A order = .abort := by
  have := checkDims_none_abort order ⟨v, w, ho.mem_iff.2 hv, ho.mem_iff.2 hw, hd⟩
  unfold lambdaAll lambdaVoid
  rw [this]; exact ⟨rfl, rfl⟩

/-- `[](double& s, double& x, double y) { s += y; x = s; return x*y; }` called with a scalar and two
vectors -/
example : lambdaAll (fun xs => match xs with
      | [s, x, y] => .ok ((s + y) * y, [s + y, s + y, y])
      | _ => .ub) [.scalar 5, .vec ⟨[1, 2, 3], [3]⟩, .vec ⟨[10, 20, 30], [3]⟩]
      [.vec ⟨[10, 20, 30], [3]⟩, .scalar 5, .vec ⟨[1, 2, 3], [3]⟩] =
    .ok (⟨[150, 700, 1950], [3]⟩, [.scalar 65, .vec ⟨[15, 35, 65], [3]⟩, .vec ⟨[10, 20, 30], [3]⟩]) := rfl

example : Agree [3] [.scalar 5, .vec ⟨[1, 2, 3], [3]⟩, .vec ⟨[10, 20, 30], [3]⟩] := by
  refine ⟨⟨⟨[1, 2, 3], [3]⟩, by simp⟩, ?_⟩
  intro v hv
  rcases List.mem_cons.1 hv with h | hv
  · cases h
  rcases List.mem_cons.1 hv with h | hv
  · cases h; exact ⟨rfl, rfl⟩
  rcases List.mem_cons.1 hv with h | hv
  · cases h; exact ⟨rfl, rfl⟩
  · simp at hv

end all
end Vectorize
end Verif.Core
