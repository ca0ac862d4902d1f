import Verif.Astro.Stack
import Verif.Astro.CoordProps
import Verif.Math.PartialProps
import Verif.Math.StatsProps
import Verif.Math.OrderProps
/-!
# C167: distances between all the sources; C168: means of stacked cutouts
-/
namespace Verif.Astro
open Verif Verif.Core Verif.Index

/-! ### Distances -/

theorem mem_pairs (n i j : Nat) : (i, j) ∈ pairs n ↔ i < j ∧ j < n := by
  unfold pairs
  simp only [List.mem_flatMap, List.mem_range, List.mem_map, List.mem_range'_1, Prod.mk.injEq]
  constructor
  · rintro ⟨a, ha, b, hb, rfl, rfl⟩; omega
  · rintro ⟨h1, h2⟩
    exact ⟨i, by omega, j, by omega, rfl, rfl⟩

/-- a loop that writes at `(j, i)` a function of `(i, j)` -/
theorem foldlM_put {α : Type} (f : Nat → Nat → α) (body : Img α → Nat × Nat → Res (Img α)) (n : Nat)
    (hb : ∀ (r : Img α) (i j : Nat), i < n → j < n → body r (i, j) = r.put j i (f i j)) :
    ∀ (L : List (Nat × Nat)) (r : Img α), (∀ p ∈ L, p.1 < n ∧ p.2 < n) → r.WF → r.nx = n → r.ny = n →
    ∃ w, L.foldlM body r = .ok w ∧ w.WF ∧ w.nx = n ∧ w.ny = n ∧
      ∀ x y, w.at x y = if (y, x) ∈ L then some (f y x) else r.at x y := by
  intro L
  induction L with
  | nil => intro r _ h1 h2 h3; exact ⟨r, rfl, h1, h2, h3, fun x y => by simp⟩
  | cons p L ih =>
    intro r hL h1 h2 h3
    obtain ⟨i, j⟩ := p
    obtain ⟨hi, hj⟩ := hL (i, j) (by simp)
    obtain ⟨w, w1, w2, w3, w4, w5⟩ := put_spec h1 (x := j) (y := i) (by rw [h2]; exact hj) (by rw [h3]; exact hi) (f i j)
    obtain ⟨s, s1, s2, s3, s4, s5⟩ := ih w (fun p hp => hL p (by simp [hp])) w2 (w3.trans h2) (w4.trans h3)
    refine ⟨s, ?_, s2, s3, s4, ?_⟩
    · rw [List.foldlM_cons, hb r i j hi hj, w1, Res.ok_bind, s1]
    · intro x y
      rw [s5, w5]
      by_cases h : (y, x) ∈ L
      · rw [if_pos h, if_pos (by simp [h])]
      · rw [if_neg h]
        by_cases he : x = j ∧ y = i
        · rw [if_pos he, if_pos (by simp [he]), he.1, he.2]
        · rw [if_neg he, if_neg]
          intro hh
          rcases List.mem_cons.1 hh with hh | hh
          · simp only [Prod.mk.injEq] at hh
            exact he ⟨hh.2, hh.1⟩
          · exact h hh

/-- **C167** (the full statement, that the result holds the distances between all the sources, is false: see
`C167_refuted`) `qdist` puts the distance in arcsec between sources `i` and `j` at `(i, j)` for `j < i`; all the other elements
are 0. -/
theorem C167_lower_partial (ra dec : List ℝ) (h : ra.length = dec.length) : ∃ r, qdist ra dec = .ok r ∧ r.WF ∧ r.nx = ra.length ∧ r.ny = ra.length ∧
    ∀ (i j : Nat) (hi : i < ra.length) (hj : j < ra.length),
      r.at i j = some (if j < i then Coord.angdist ra[i] (dec[i]'(h ▸ hi)) ra[j] (dec[j]'(h ▸ hj)) else 0) := by
  let f : Nat → Nat → ℝ := fun i j => if hij : i < ra.length ∧ j < ra.length then
    Coord.angdist (ra[i]'hij.1) (dec[i]'(h ▸ hij.1)) (ra[j]'hij.2) (dec[j]'(h ▸ hij.2)) else 0
  obtain ⟨w, w1, w2, w3, w4, w5⟩ := foldlM_put f (fun (r : Img ℝ) p => do
      let d ← pairDist (ra.map (· * (Real.pi / 180))) (dec.map (· * (Real.pi / 180))) ((dec.map (· * (Real.pi / 180))).map Real.cos) p.1 p.2
      r.put p.2 p.1 d) ra.length (by
    intro r i j hi hj
    have hi' : i < dec.length := h ▸ hi
    have hj' : j < dec.length := h ▸ hj
    unfold pairDist
    simp only
    rw [Res.rd_lt (by simpa using hj), Res.ok_bind, Res.rd_lt (by simpa using hi), Res.ok_bind, Res.rd_lt (by simpa using hj'), Res.ok_bind,
      Res.rd_lt (by simpa using hi'), Res.ok_bind, Res.rd_lt (by simpa using hj'), Res.ok_bind, Res.rd_lt (by simpa using hi'), Res.ok_bind, Res.ok_bind]
    congr 1
    simp only [f, dif_pos (And.intro hi hj), List.getElem_map, Coord.angdist, Coord.hav, Coord.d2r]
    have hp := Real.pi_ne_zero
    simp only [mul_comm (Real.pi / 180)]
    field_simp) (pairs ra.length) (Img.fill ra.length ra.length 0)
    (fun p hp => by
      obtain ⟨a, b⟩ := p
      have := (mem_pairs _ _ _).1 hp
      exact ⟨by simp only; omega, this.2⟩) (fill_wf _ _ _) rfl rfl
  refine ⟨w, ?_, w2, w3, w4, ?_⟩
  · unfold qdist
    simp only
    rw [Res.check_pos h, Res.ok_bind, w1]
  · intro i j hi hj
    rw [w5]
    by_cases hij : j < i
    · rw [if_pos ((mem_pairs _ _ _).2 ⟨hij, hi⟩), if_pos hij]
      simp only [f, dif_pos (And.intro hj hi)]
      rw [Coord.C97_symm]
    · rw [if_neg (fun hh => hij ((mem_pairs _ _ _).1 hh).1), if_neg hij, fill_at, if_pos ⟨hi, hj⟩]

/-- **C167** catalogues of different lengths are refused -/
theorem C167_sizes (ra dec : List ℝ) (h : ra.length ≠ dec.length) : qdist ra dec = .abort := by
  unfold qdist
  simp only
  rw [Res.check_neg h]; rfl

/-- **C167, refuted** the matrix is not symmetric: the distance between the first and the second source, one degree, is 0 in one order -/
theorem C167_refuted : ∃ r, qdist [0, 0] [0, 1] = .ok r ∧ r.at 1 0 = some 3600 ∧ r.at 0 1 = some 0 := by
  obtain ⟨r, h1, -, -, -, h2⟩ := C167_lower_partial [0, 0] [0, 1] rfl
  refine ⟨r, h1, ?_, ?_⟩
  · rw [h2 1 0 (by decide) (by decide), if_pos (by decide)]
    have := Coord.C97_meridian (d := 1) (e := 0) 0 (by norm_num)
    simp only [List.getElem_cons_succ, List.getElem_cons_zero]
    rw [this]; norm_num
  · rw [h2 0 1 (by decide) (by decide), if_neg (by decide)]

/-! ### Means of cutouts -/

variable {K : Type} [Field K] [LinearOrder K] [IsStrictOrderedRing K]

/-- Spec: pixel `(y, x)` of cutout `k` -/
def pix (v : Vec K) (h w k y x : Nat) : K := v.data.getD ((k * h + y) * w + x) 0

/-- Spec: the values of pixel `(y, x)` in the cutouts of a list of sources -/
def pixels (v : Vec K) (h w : Nat) (ids : List Nat) (y x : Nat) : List K := ids.map fun k => pix v h w k y x

/-- Spec: a cube of `n` cutouts of `h` times `w` pixels -/
def IsCube (v : Vec K) (n h w : Nat) : Prop := v.dims = [n, h, w] ∧ v.data.length = n * (h * w)

/-- Spec: the image of which pixel `(y, x)` is `f y x` -/
def IsImage {β : Type} (r : Vec β) (h w : Nat) (f : Nat → Nat → β) : Prop :=
  r.dims = [h, w] ∧ r.data.length = h * w ∧ ∀ y x, y < h → x < w → r.data[y * w + x]? = some (f y x)

theorem reduce_cube {β : Type} (f : List K → β) (v : Vec K) (n h w : Nat) (hv : IsCube v n h w) :
    ∃ r, Math.runIndex (fun s => .ok (f s)) 0 v = .ok r ∧ IsImage r h w fun y x => f (pixels v h w (List.range n) y x) := by
  obtain ⟨hd, hl⟩ := hv
  obtain ⟨r, h1, h2, h3, h4⟩ := Math.C24_partial_functions (fun s => Res.ok (f s)) v [] [h, w] n hd
    (by rw [hl, hd]; simp) (fun s _ => ⟨_, rfl⟩)
  refine ⟨r, h1, h2, by simpa using h3, ?_⟩
  intro y x hy hx
  obtain ⟨s, z, ⟨s1, s2⟩, s3, s4⟩ := h4 [] [y, x] .nil (.cons hy (.cons hx .nil))
  simp only [Res.ok.injEq] at s3
  have hs : s = pixels v h w (List.range n) y x := by
    apply List.ext_getElem (by simp [pixels, s1])
    intro k hk hk'
    have hkn : k < n := s1 ▸ hk
    have := s2 k hkn
    rw [List.getElem?_eq_getElem hk] at this
    have hi : rowMajor ([] ++ n :: [h, w]) ([] ++ k :: [y, x]) = (k * h + y) * w + x := by simp [rowMajor]; ring
    rw [hi] at this
    simp [pixels, pix, this]
  have hi : rowMajor ([] ++ [h, w]) ([] ++ [y, x]) = y * w + x := by simp [rowMajor]
  rw [hi] at s4
  rw [s4, ← s3, hs]

/-- **C168** pixel `(y, x)` of the mean is the mean of the pixels `(y, x)` of all the cutouts -/
theorem C168_mean (v : Vec K) (n h w : Nat) (hv : IsCube v n h w) :
    ∃ r, qstackMean v = .ok r ∧ IsImage r h w fun y x => Stats.mean (pixels v h w (List.range n) y x) :=
  reduce_cube _ v n h w hv

theorem zip_cube (f g : Vec K) (n h w : Nat) (hf : IsCube f n h w) (hg : IsCube g n h w) :
    IsCube ⟨List.zipWith (· * ·) f.data g.data, f.dims⟩ n h w := by
  refine ⟨hf.1, ?_⟩
  simp [hf.2, hg.2]

theorem zip_pix (f g : Vec K) (n h w : Nat) (hf : IsCube f n h w) (hg : IsCube g n h w) (k y x : Nat) :
    pix ⟨List.zipWith (· * ·) f.data g.data, f.dims⟩ h w k y x = pix f h w k y x * pix g h w k y x := by
  unfold pix
  simp only [List.getD_eq_getElem?_getD, List.getElem?_zipWith]
  have hl : f.data.length = g.data.length := by rw [hf.2, hg.2]
  rcases Nat.lt_or_ge ((k * h + y) * w + x) f.data.length with hc | hc
  · rw [List.getElem?_eq_getElem hc, List.getElem?_eq_getElem (hl ▸ hc)]; rfl
  · rw [List.getElem?_eq_none hc, List.getElem?_eq_none (hl ▸ hc)]; simp

/-- Spec: the mean of `f` with the weights `g` -/
def wmean (f g : List K) : Option K := if g.sum = 0 then none else some ((List.zipWith (· * ·) f g).sum / g.sum)

/-- **C168** with weights, pixel `(y, x)` of the mean is the weighted mean of the pixels `(y, x)` of all the cutouts; cubes of different
dimensions are refused -/
theorem C168_weighted (f g : Vec K) (n h w : Nat) (hf : IsCube f n h w) (hg : IsCube g n h w) :
    ∃ r, qstackMeanW f g = .ok r ∧ IsImage r h w fun y x => wmean (pixels f h w (List.range n) y x) (pixels g h w (List.range n) y x) := by
  obtain ⟨t, t1, t2, t3, t4⟩ := reduce_cube Stats.total _ n h w (zip_cube f g n h w hf hg)
  obtain ⟨u, u1, u2, u3, u4⟩ := reduce_cube Stats.total g n h w hg
  refine ⟨⟨List.zipWith quot t.data u.data, t.dims⟩, ?_, t2, by simp [t3, u3], ?_⟩
  · unfold qstackMeanW
    rw [Res.check_pos (by rw [hf.1, hg.1]), Res.ok_bind, t1, Res.ok_bind, u1, Res.ok_bind, Res.check_pos (by rw [t2, u2]), Res.ok_bind]
  · intro y x hy hx
    simp only [List.getElem?_zipWith]
    rw [t4 y x hy hx, u4 y x hy hx]
    have hz : pixels ⟨List.zipWith (· * ·) f.data g.data, f.dims⟩ h w (List.range n) y x =
        List.zipWith (· * ·) (pixels f h w (List.range n) y x) (pixels g h w (List.range n) y x) := by
      unfold pixels
      rw [List.zipWith_map, List.zipWith_self]
      exact List.map_congr_left fun k _ => zip_pix f g n h w hf hg k y x
    simp only [hz, Stats.total_eq, wmean, quot]

/-- **C168** cubes of different dimensions are refused -/
theorem C168_dims (f g : Vec K) (hd : f.dims ≠ g.dims) : qstackMeanW f g = .abort := by
  unfold qstackMeanW
  rw [Res.check_neg hd]; rfl

/-- **C168** pixel `(y, x)` of the median is the median (C26) of the values that are not NaN among the pixels `(y, x)` of the cutouts: the
`m/2`-th smallest of `m` -/
theorem C168_median {α : Type} [LinearOrder α] (v : Vec (Option α)) (n h w : Nat) (hd : v.dims = [n, h, w]) (hl : v.data.length = n * (h * w))
    (hn : 0 < n) : ∃ r, qstackMedian v = .ok r ∧ r.dims = [h, w] ∧ r.data.length = h * w ∧ ∀ y x, y < h → x < w →
      ∃ s : List (Option α), s.length = n ∧ (∀ k, k < n → s[k]? = v.data[(k * h + y) * w + x]?) ∧
        ((Math.numbers s = 0 ∧ r.data[y * w + x]? = some none) ∨
          (0 < Math.numbers s ∧ ∃ a, r.data[y * w + x]? = some (some a) ∧ Math.IsOrderStat s (Math.numbers s / 2) a)) := by
  have hm : ∀ s : List (Option α), s.length = n → ∃ y, Math.median s = .ok y := by
    intro s hs
    have : s ≠ [] := by rintro rfl; simp at hs; omega
    rcases Math.C26_median s this with ⟨-, h⟩ | ⟨-, a, h, -⟩
    · exact ⟨_, h⟩
    · exact ⟨_, h⟩
  obtain ⟨r, h1, h2, h3, h4⟩ := Math.C24_partial_functions Math.median v [] [h, w] n hd (by rw [hl, hd]; simp) hm
  refine ⟨r, h1, h2, by simpa using h3, fun y x hy hx => ?_⟩
  obtain ⟨s, z, ⟨s1, s2⟩, s3, s4⟩ := h4 [] [y, x] .nil (.cons hy (.cons hx .nil))
  have hi : rowMajor ([] ++ [h, w]) ([] ++ [y, x]) = y * w + x := by simp [rowMajor]
  rw [hi] at s4
  refine ⟨s, s1, fun k hk => ?_, ?_⟩
  · rw [← s2 k hk]
    congr 1
    simp [rowMajor]; ring
  · have : s ≠ [] := by rintro rfl; simp at s1; omega
    rw [s4]
    rcases Math.C26_median s this with ⟨h5, h6⟩ | ⟨h5, a, h6, h7⟩
    · rw [h6] at s3; cases s3
      exact Or.inl ⟨h5, rfl⟩
    · rw [h6] at s3; cases s3
      exact Or.inr ⟨h5, a, rfl, h7⟩

/-! ### Bootstrap -/

theorem stack_get {β : Type} (L : List (List β)) (m : Nat) (hL : ∀ l ∈ L, l.length = m) (b i : Nat) (hi : i < m) (hb : b < L.length) :
    L.flatten[b * m + i]? = L[b][i]? := by
  induction L generalizing b with
  | nil => exact absurd hb (by simp)
  | cons l L ih =>
    have hl := hL l (by simp)
    rw [List.flatten_cons]
    cases b with
    | zero => rw [Nat.zero_mul, Nat.zero_add, List.getElem?_append_left (by omega)]; rfl
    | succ b =>
      rw [List.getElem?_append_right (by rw [hl, Nat.succ_mul]; omega), hl, show (b + 1) * m + i - m = b * m + i by rw [Nat.succ_mul]; omega,
        ih (fun l hl => hL l (by simp [hl])) b (by simpa using hb)]
      rfl

theorem select_spec (v : Vec K) (n h w : Nat) (hv : IsCube v n h w) (ids : List Nat) (hi : ∀ i ∈ ids, i < n) :
    ∃ s, select v ids = .ok s ∧ IsCube s ids.length h w ∧ ∀ y x, y < h → x < w →
      pixels s h w (List.range ids.length) y x = pixels v h w ids y x := by
  obtain ⟨hd, hl⟩ := hv
  have hrow : ∀ i, i < n → ((v.data.drop (i * (h * w))).take (h * w)).length = h * w := by
    intro i hi
    rw [List.length_take, List.length_drop, hl]
    have : (i + 1) * (h * w) ≤ n * (h * w) := Nat.mul_le_mul_right _ hi
    rw [Nat.succ_mul] at this
    omega
  have hm : ids.mapM (fun i => if i < n then Res.ok ((v.data.drop (i * (h * w))).take (h * w)) else .abort) =
      .ok (ids.map fun i => (v.data.drop (i * (h * w))).take (h * w)) := by
    apply Res.mapM_ok
    intro i hmem
    rw [if_pos (hi i hmem)]
  refine ⟨⟨(ids.map fun i => (v.data.drop (i * (h * w))).take (h * w)).flatten, [ids.length, h, w]⟩, ?_, ⟨rfl, ?_⟩, ?_⟩
  · unfold select
    simp only [hd, List.getD_cons_zero, List.drop_succ_cons, List.drop_zero, List.prod_cons, List.prod_nil, Nat.mul_one]
    rw [hm]; rfl
  · have : ∀ L : List (List K), (∀ l ∈ L, l.length = h * w) → L.flatten.length = L.length * (h * w) := by
      intro L
      induction L with
      | nil => intro _; simp
      | cons l L ih =>
        intro hL
        rw [List.flatten_cons, List.length_append, hL l (by simp), ih fun l hl => hL l (by simp [hl]), List.length_cons, Nat.succ_mul, Nat.add_comm]
    rw [this]
    · simp
    · intro l hl
      obtain ⟨i, hmem, rfl⟩ := List.mem_map.1 hl
      exact hrow i (hi i hmem)
  · intro y x hy hx
    unfold pixels
    apply List.ext_getElem (by simp)
    intro k hk hk'
    have hk2 : k < ids.length := by simpa using hk'
    simp only [List.getElem_map, List.getElem_range]
    unfold pix
    simp only [List.getD_eq_getElem?_getD]
    have hp : y * w + x < h * w := flat_lt hy hx
    rw [show (k * h + y) * w + x = k * (h * w) + (y * w + x) by ring, stack_get _ (h * w) (by
      intro l hl
      obtain ⟨i, hmem, rfl⟩ := List.mem_map.1 hl
      exact hrow i (hi i hmem)) k _ hp (by simpa using hk2)]
    rw [List.getElem_map, List.getElem?_take, if_pos hp, List.getElem?_drop]
    congr 2
    ring

/-- Spec: the cube of which pixel `(y, x)` of image `b` is `f b y x` -/
def IsStack {β : Type} (r : Vec β) (n h w : Nat) (f : Nat → Nat → Nat → β) : Prop :=
  r.dims = [n, h, w] ∧ r.data.length = n * (h * w) ∧
  ∀ b y x, b < n → y < h → x < w → r.data[(b * h + y) * w + x]? = some (f b y x)

theorem push_stack {β : Type} (bs img : Vec β) (n h w : Nat) (f : Nat → Nat → Nat → β) (g : Nat → Nat → β) (h0 : 0 < h * w) (hn : n + 1 < W)
    (hb : (n = 0 ∧ bs.data = []) ∨ (0 < n ∧ IsStack bs n h w f)) (hg : IsImage img h w g) :
    ∃ r, bs.pushSlice img = .ok r ∧ IsStack r (n + 1) h w fun b => if b < n then f b else g := by
  obtain ⟨g1, g2, g3⟩ := hg
  rcases hb with ⟨rfl, hb⟩ | ⟨hp, b1, b2, b3⟩
  · refine ⟨⟨img.data, 1 :: img.dims⟩, ?_, ?_, ?_, ?_⟩
    · unfold Vec.pushSlice
      rw [if_pos hb]
    · simp [g1]
    · simpa using g2
    · intro b y x hb hy hx
      have : b = 0 := by omega
      subst this
      simpa using g3 y x hy hx
  · have hne : bs.data ≠ [] := by
      intro e
      rw [e] at b2
      have : 0 < n * (h * w) := Nat.mul_pos hp h0
      rw [List.length_nil] at b2
      omega
    refine ⟨⟨bs.data ++ img.data, [n + 1, h, w]⟩, ?_, rfl, ?_, ?_⟩
    · unfold Vec.pushSlice
      rw [if_neg hne, b1]
      simp only
      rw [Res.check_pos g1.symm, Res.ok_bind, Nat.mod_eq_of_lt hn]
    · simp only [List.length_append, b2, g2]; ring
    · intro b y x hb hy hx
      have hp : y * w + x < h * w := flat_lt hy hx
      have e : (b * h + y) * w + x = b * (h * w) + (y * w + x) := by ring
      simp only
      by_cases hbn : b < n
      · rw [if_pos hbn, List.getElem?_append_left, b3 b y x hbn hy hx]
        rw [e, b2]
        exact flat_lt hbn hp
      · have : b = n := by omega
        subst this
        rw [if_neg hbn, List.getElem?_append_right (by rw [e, b2]; omega), e, b2, Nat.add_sub_cancel_left]
        exact g3 y x hy hx

/-- a loop that pushes one image for each element of a list -/
theorem boot_loop {β γ : Type} (h w : Nat) (h0 : 0 < h * w) (img : γ → Res (Vec β)) (g : γ → Nat → Nat → β) (d : γ)
    (loop : List γ → Vec β → Res (Vec β)) (l0 : ∀ bs, loop [] bs = .ok bs)
    (l1 : ∀ c L bs i r, img c = .ok i → bs.pushSlice i = .ok r → loop (c :: L) bs = loop L r) :
    ∀ (L : List γ) (n : Nat) (bs : Vec β) (f : Nat → Nat → Nat → β), (∀ c ∈ L, ∃ i, img c = .ok i ∧ IsImage i h w (g c)) → n + L.length < W →
      ((n = 0 ∧ bs.data = []) ∨ (0 < n ∧ IsStack bs n h w f)) → 0 < n + L.length →
      ∃ r, loop L bs = .ok r ∧ IsStack r (n + L.length) h w fun b => if b < n then f b else g (L.getD (b - n) d) := by
  intro L
  induction L with
  | nil =>
    intro n bs f _ _ hb hp
    refine ⟨bs, l0 bs, ?_⟩
    rcases hb with ⟨hb, -⟩ | ⟨-, b1, b2, b3⟩
    · exact absurd hp (by simp [hb])
    · refine ⟨b1, b2, fun b y x hb hy hx => ?_⟩
      have hb' : b < n := hb
      rw [b3 b y x hb' hy hx]
      simp only
      rw [if_pos hb']
  | cons c L ih =>
    intro n bs f hL hW hb _
    obtain ⟨i, i1, i2⟩ := hL c (by simp)
    rw [List.length_cons] at hW
    obtain ⟨r, r1, r2⟩ := push_stack bs i n h w f (g c) h0 (by omega) hb i2
    obtain ⟨s, s1, s2, s3, s4⟩ := ih (n + 1) r _ (fun c hc => hL c (by simp [hc])) (by omega) (Or.inr ⟨by omega, r2⟩) (by omega)
    refine ⟨s, by rw [l1 c L bs i r i1 r1, s1], ?_, ?_, ?_⟩
    · rw [s2, List.length_cons]; congr 1; omega
    · rw [s3, List.length_cons]; congr 1; omega
    · intro b y x hb hy hx
      rw [List.length_cons] at hb
      rw [s4 b y x (by omega) hy hx]
      congr 1
      simp only
      by_cases h1 : b < n
      · rw [if_pos (by omega), if_pos h1, if_pos h1]
      · by_cases h2 : b < n + 1
        · have : b = n := by omega
          subst this
          rw [if_pos h2, if_neg h1, if_neg h1, Nat.sub_self]; rfl
        · rw [if_neg h2, if_neg h1, show b - n = (b - (n + 1)) + 1 by omega]; rfl

/-- **C168** image `b` of a bootstrap is the mean of the cutouts drawn for it -/
theorem C168_bootstrap (v : Vec K) (n h w : Nat) (hv : IsCube v n h w) (h0 : 0 < h * w) (draws : List (List Nat)) (hd : ∀ l ∈ draws, ∀ i ∈ l, i < n)
    (hne : draws ≠ []) (hW : draws.length < W) : ∃ r, meanBootstrap v draws (Vec.empty 3) = .ok r ∧
      IsStack r draws.length h w fun b y x => Stats.mean (pixels v h w (draws.getD b []) y x) := by
  obtain ⟨r, r1, r2⟩ := boot_loop h w h0 (fun ids => select v ids >>= qstackMean) (fun ids y x => Stats.mean (pixels v h w ids y x)) []
    (meanBootstrap v) (fun _ => rfl) (by
      intro c L bs i r hi hr
      obtain ⟨s, s1, s2⟩ := Res.bind_eq_ok.1 hi
      rw [meanBootstrap, s1, Res.ok_bind, s2, Res.ok_bind, hr, Res.ok_bind]) draws 0 (Vec.empty 3) (fun _ _ _ => none)
    (by
      intro ids hids
      obtain ⟨s, s1, s2, s3⟩ := select_spec v n h w hv ids (hd ids hids)
      obtain ⟨r, r1, r2, r3, r4⟩ := C168_mean s ids.length h w s2
      refine ⟨r, by rw [s1, Res.ok_bind, r1], r2, r3, fun y x hy hx => ?_⟩
      rw [r4 y x hy hx]
      simp only
      rw [s3 y x hy hx]) (by omega) (Or.inl ⟨rfl, rfl⟩) (by
        have := List.length_pos_of_ne_nil hne
        omega)
  rw [Nat.zero_add] at r2
  exact ⟨r, r1, by simpa using r2⟩

/-- **C168** with weights, each cutout drawn keeps its own weights -/
theorem C168_bootstrap_weighted (v g : Vec K) (n h w : Nat) (hv : IsCube v n h w) (hg : IsCube g n h w) (h0 : 0 < h * w) (draws : List (List Nat))
    (hd : ∀ l ∈ draws, ∀ i ∈ l, i < n) (hne : draws ≠ []) (hW : draws.length < W) : ∃ r, meanBootstrapW v g draws (Vec.empty 3) = .ok r ∧
      IsStack r draws.length h w fun b y x => wmean (pixels v h w (draws.getD b []) y x) (pixels g h w (draws.getD b []) y x) := by
  obtain ⟨r, r1, r2⟩ := boot_loop h w h0 (fun ids => select v ids >>= fun sf => select g ids >>= fun sw => qstackMeanW sf sw)
    (fun ids y x => wmean (pixels v h w ids y x) (pixels g h w ids y x)) []
    (meanBootstrapW v g) (fun _ => rfl) (by
      intro c L bs i r hi hr
      obtain ⟨s, s1, s2⟩ := Res.bind_eq_ok.1 hi
      obtain ⟨t, t1, t2⟩ := Res.bind_eq_ok.1 s2
      rw [meanBootstrapW, s1, Res.ok_bind, t1, Res.ok_bind, t2, Res.ok_bind, hr, Res.ok_bind]) draws 0 (Vec.empty 3) (fun _ _ _ => none)
    (by
      intro ids hids
      obtain ⟨s, s1, s2, s3⟩ := select_spec v n h w hv ids (hd ids hids)
      obtain ⟨t, t1, t2, t3⟩ := select_spec g n h w hg ids (hd ids hids)
      obtain ⟨r, r1, r2, r3, r4⟩ := C168_weighted s t ids.length h w s2 t2
      refine ⟨r, by rw [s1, Res.ok_bind, t1, Res.ok_bind, r1], r2, r3, fun y x hy hx => ?_⟩
      rw [r4 y x hy hx]
      simp only
      rw [s3 y x hy hx, t3 y x hy hx]) (by omega) (Or.inl ⟨rfl, rfl⟩) (by
        have := List.length_pos_of_ne_nil hne
        omega)
  rw [Nat.zero_add] at r2
  exact ⟨r, r1, by simpa using r2⟩

example : IsCube (⟨[1, 2, 3, 4], [2, 1, 2]⟩ : Vec ℚ) 2 1 2 ∧
    meanBootstrap (⟨[1, 2, 3, 4], [2, 1, 2]⟩ : Vec ℚ) [[1, 1], [0, 1]] (Vec.empty 3) = .ok ⟨[some 3, some 4, some 2, some 3], [2, 1, 2]⟩ :=
  ⟨⟨rfl, rfl⟩, by decide +kernel⟩

end Verif.Astro
