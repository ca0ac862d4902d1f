import Verif.Astro.QxRefute
/-!
# C57: the bucket search in several threads
-/
namespace Verif.Qx
open Verif

variable {K : Type} [LinearOrder K] [Field K] [IsStrictOrderedRing K] [FloorRing K]

/-! ### Helpers -/

theorem mapM_at {α β : Type} {F : α → Res β} {z : List α} {r : List β} (h : z.mapM F = .ok r) : z.length = r.length ∧ ∀ i, (h1 : i < z.length) → (h2 : i < r.length) → F z[i] = .ok r[i] := by
  induction z generalizing r with
  | nil => rw [List.mapM_nil] at h; cases h; simp
  | cons a z ih =>
    rw [List.mapM_cons, Res.bind_eq_ok] at h
    obtain ⟨b, hb, h⟩ := h
    rw [Res.bind_eq_ok] at h
    obtain ⟨r', hr', h⟩ := h
    cases h
    obtain ⟨e, h3⟩ := ih hr'
    refine ⟨by simp [e], fun i h1 h2 => ?_⟩
    cases i with
    | zero => exact hb
    | succ i => exact h3 i (by simpa using h1) (by simpa using h2)

/-- a part of the sources gives a part of the results -/
theorem mapM_slice {β : Type} {F : Nat → Res β} {n : Nat} {r : List β} (h : (List.range n).mapM F = .ok r) (b k : Nat) (hb : b + k ≤ n) : (List.range' b k).mapM F = .ok ((r.drop b).take k) := by
  obtain ⟨e, h1⟩ := mapM_at h
  rw [List.length_range] at e
  refine Res.mapM_getElem (by simp; omega) fun i hi hr => ?_
  have hi' : i < k := by simpa using hi
  have := h1 (b + i) (by simp; omega) (by omega)
  simp only [List.getElem_range, List.getElem_range', List.getElem_take, List.getElem_drop] at this ⊢
  rw [one_mul]
  exact this

theorem chunk_bound {n nt as t : Nat} (ht : t < nt) (h : as * (nt - 1) < n) : t * as + (chunk n nt as t).length ≤ n := by
  have e : as * (nt - 1) = (nt - 1) * as := Nat.mul_comm _ _
  have h1 : t * as ≤ (nt - 1) * as := Nat.mul_le_mul_right _ (by omega)
  unfold chunk
  rw [List.length_range']
  split
  · omega
  · have h3 : (t + 1) * as ≤ (nt - 1) * as := Nat.mul_le_mul_right _ (by omega)
    have : (t + 1) * as = t * as + as := Nat.succ_mul _ _
    omega

theorem chunk_mapM {β : Type} {F : Nat → Res β} {n : Nat} {r : List β} (h : (List.range n).mapM F = .ok r) {nt as t : Nat} (ht : t < nt) (hn : as * (nt - 1) < n) :
    (chunk n nt as t).mapM F = .ok ((r.drop (t * as)).take (chunk n nt as t).length) := by
  have := mapM_slice h (t * as) (chunk n nt as t).length (chunk_bound ht hn)
  rw [← this]
  congr 1
  unfold chunk
  rw [List.length_range']

/-- where the sources of the threads before the thread `t` end -/
def upTo (n nt as t : Nat) : Nat := if t = nt then n else t * as

theorem upTo_succ {n nt as t : Nat} (ht : t < nt) (h : as * (nt - 1) < n) : t * as + (chunk n nt as t).length = upTo n nt as (t + 1) := by
  have e : as * (nt - 1) = (nt - 1) * as := Nat.mul_comm _ _
  unfold upTo chunk
  rw [List.length_range']
  split
  · rename_i h1
    rw [if_pos (by omega)]
    subst h1
    omega
  · rw [if_neg (by omega), Nat.succ_mul]

theorem mergeRange_chunk {α : Type} (r l : List α) {n nt as t : Nat} (hl : l.length = n) (hr : r.length = n) (ht : t < nt) (h0 : 1 ≤ as) (h : as * (nt - 1) < n) (hW : n < 2 ^ 64) :
    mergeRange (t * as) (l.take (t * as) ++ r.drop (t * as)) ((l.drop (t * as)).take (chunk n nt as t).length) = .ok (l.take (upTo n nt as (t + 1)) ++ r.drop (upTo n nt as (t + 1))) := by
  have hb := chunk_bound ht h
  rw [← upTo_succ ht h]
  have hlen : ((l.drop (t * as)).take (chunk n nt as t).length).length = (chunk n nt as t).length := by simp; omega
  have hlen2 : (l.take (t * as) ++ r.drop (t * as)).length = n := by simp; omega
  unfold mergeRange
  rw [hlen, hlen2, checkRange_chunk ht h0 h hW, Res.ok_bind]
  generalize (chunk n nt as t).length = m at *
  congr 1
  have e1 : (l.take (t * as)).length = t * as := by simp; omega
  rw [List.take_left' e1, List.take_add]
  congr 1
  rw [List.drop_append, e1, List.drop_eq_nil_of_le (by rw [e1]; omega), List.nil_append, List.drop_drop]
  congr 1
  omega

/-! ### C57 -/

/-- **C57** (threads): the bucket search gives the same result in several threads as in one, if each catalogue has at least as many sources as there are threads. -/
theorem C57_threads_partial (sq : K → K) (self mirror : Bool) (nth nt as1 as2 : Nat) (c1 c2 : List (K × K)) (hnt : 1 ≤ nt) (h10 : 1 ≤ as1) (h1 : as1 * (nt - 1) < c1.length) (hW1 : c1.length < 2 ^ 64)
    (h20 : 1 ≤ as2) (h2 : as2 * (nt - 1) < c2.length) (hW2 : c2.length < 2 ^ 64) (r : XRes K) (hr : bucketMatch sq self mirror nth c1 c2 = .ok r) :
    bucketThreads sq self mirror nth nt as1 as2 c1 c2 = .ok r := by
  unfold bucketMatch at hr
  obtain ⟨f, hf, hr⟩ := Res.bind_eq_ok.1 hr
  obtain ⟨u, hu, hr⟩ := Res.bind_eq_ok.1 hr
  obtain ⟨fwd, hfwd, hr⟩ := Res.bind_eq_ok.1 hr
  obtain ⟨rev, hrev, hr⟩ := Res.bind_eq_ok.1 hr
  injection hr with hr
  subst hr
  have lf : fwd.length = c1.length := by rw [← (mapM_at hfwd).1]; simp
  have lr : rev.length = c2.length := by rw [← (mapM_at hrev).1]; simp
  unfold bucketThreads
  rw [hf, Res.ok_bind, hu, Res.ok_bind]
  have hparts : ((List.range nt).mapM fun t => do
      let a ← (chunk c1.length nt as1 t).mapM (work1 sq f self (if c2.length < nth then c2.length else nth) nth c1)
      let b ← (chunk c2.length nt as2 t).mapM (work2 sq f (!self && mirror) c2)
      Res.ok (a, b)) = .ok ((List.range nt).map fun t =>
        ((fwd.drop (t * as1)).take (chunk c1.length nt as1 t).length, (rev.drop (t * as2)).take (chunk c2.length nt as2 t).length)) := by
    apply Res.mapM_ok
    intro t ht
    rw [List.mem_range] at ht
    rw [chunk_mapM hfwd ht h1, Res.ok_bind, chunk_mapM hrev ht h2]
    rfl
  rw [hparts, Res.ok_bind]
  have key : ∀ m ≤ nt, ((List.range m).zip ((List.range m).map fun t =>
      ((fwd.drop (t * as1)).take (chunk c1.length nt as1 t).length, (rev.drop (t * as2)).take (chunk c2.length nt as2 t).length))).foldlM (fun (r : XRes K) p => do
        let fwd ← mergeRange (p.1 * as1) r.fwd p.2.1
        let rev ← if mirror then mergeRange (p.1 * as2) r.rev p.2.2 else .ok r.rev
        Res.ok ⟨fwd, rev⟩) (XRes.init nth c1.length c2.length) =
      .ok ⟨fwd.take (upTo c1.length nt as1 m) ++ (List.replicate c1.length (List.replicate nth noMatch)).drop (upTo c1.length nt as1 m),
        if mirror then rev.take (upTo c2.length nt as2 m) ++ (List.replicate c2.length noMatch).drop (upTo c2.length nt as2 m) else List.replicate c2.length noMatch⟩ := by
    intro m hm
    induction m with
    | zero =>
      have e : ∀ n as, upTo n nt as 0 = 0 := fun n as => by unfold upTo; rw [if_neg (by omega), Nat.zero_mul]
      rw [e, e]
      cases mirror <;> rfl
    | succ m ih =>
      rw [List.range_succ, List.map_append, List.zip_append (by simp), List.foldlM_append, ih (by omega), Res.ok_bind]
      have eu : ∀ n as, upTo n nt as m = m * as := fun n as => by unfold upTo; rw [if_neg (by omega)]
      simp only [List.map_cons, List.map_nil, List.zip_cons_cons, List.zip_nil_right, List.foldlM_cons, List.foldlM_nil]
      rw [eu, mergeRange_chunk _ fwd lf (by simp) (by omega) h10 h1 hW1, Res.ok_bind]
      cases mirror
      · rfl
      · simp only [if_true]
        rw [eu, mergeRange_chunk _ rev lr (by simp) (by omega) h20 h2 hW2]
        rfl
  rw [key nt le_rfl]
  have e : ∀ n as, upTo n nt as nt = n := fun n as => by unfold upTo; rw [if_pos rfl]
  rw [e, e, List.take_of_length_le (by omega), List.take_of_length_le (by omega), List.drop_eq_nil_of_le (by simp), List.drop_eq_nil_of_le (by simp), List.append_nil, List.append_nil]
  cases hm : mirror
  · rw [hm] at hrev
    have : (List.range c2.length).mapM (work2 sq f (!self && false) c2) = .ok (List.replicate c2.length noMatch) := by
      refine Res.mapM_getElem (by simp) fun i hi hr => ?_
      simp only [List.getElem_range, List.getElem_replicate]
      have hi' : i < c2.length := by simpa using hi
      unfold work2
      rw [List.getElem?_eq_getElem hi', Bool.and_false]
      rfl
    rw [this] at hrev
    injection hrev with hrev
    rw [← hrev]
    rfl
  · rfl

omit [IsStrictOrderedRing K] in
/-- **C57**, what fails: with less sources in one of the catalogues than threads, the program stops when it merges the results. -/
theorem C57_few_refuted (sq : K → K) (self mirror : Bool) (nth nt : Nat) (c1 c2 : List (K × K)) (hnt : 2 ≤ nt) (h : c1.length < nt ∨ (mirror = true ∧ c2.length < nt)) (hW1 : c1.length < 2 ^ 64)
    (hW2 : c2.length < 2 ^ 64) (r : XRes K) : bucketThreads sq self mirror nth nt (c1.length / nt) (c2.length / nt) c1 c2 ≠ .ok r := by
  intro hr
  obtain ⟨m, rfl⟩ : ∃ m, nt = m + 1 := ⟨nt - 1, by omega⟩
  unfold bucketThreads at hr
  obtain ⟨f, -, hr⟩ := Res.bind_eq_ok.1 hr
  obtain ⟨u, -, hr⟩ := Res.bind_eq_ok.1 hr
  obtain ⟨parts, hp, hr⟩ := Res.bind_eq_ok.1 hr
  rw [List.range_succ_eq_map, List.mapM_cons, Res.bind_eq_ok] at hp
  obtain ⟨p, hp0, hp⟩ := hp
  rw [Res.bind_eq_ok] at hp
  obtain ⟨ps, -, hp⟩ := hp
  cases hp
  obtain ⟨a, ha, hp0⟩ := Res.bind_eq_ok.1 hp0
  obtain ⟨b, hb, hp0⟩ := Res.bind_eq_ok.1 hp0
  cases hp0
  rw [List.range_succ_eq_map, List.zip_cons_cons, List.foldlM_cons, Res.bind_eq_ok] at hr
  obtain ⟨r1, hr1, -⟩ := hr
  obtain ⟨fw, hfw, hr1⟩ := Res.bind_eq_ok.1 hr1
  have hc : ∀ n, n < m + 1 → chunk n (m + 1) (n / (m + 1)) 0 = [] := by
    intro n hn
    rw [Nat.div_eq_of_lt hn]
    unfold chunk
    rw [if_neg (by omega)]
    rfl
  rcases h with h | ⟨hm, h⟩
  · rw [hc _ h, List.mapM_nil] at ha
    cases ha
    unfold mergeRange at hfw
    rw [show (XRes.init nth c1.length c2.length : XRes K).fwd.length = c1.length by simp [XRes.init], Nat.zero_mul, List.length_nil, checkRange_empty _ hW1] at hfw
    cases hfw
  · rw [hc _ h, List.mapM_nil] at hb
    cases hb
    subst hm
    dsimp only at hr1
    rw [if_pos rfl] at hr1
    obtain ⟨rv, hrv, -⟩ := Res.bind_eq_ok.1 hr1
    unfold mergeRange at hrv
    rw [show (XRes.init nth c1.length c2.length : XRes K).rev.length = c2.length by simp [XRes.init], Nat.zero_mul, List.length_nil, checkRange_empty _ hW2] at hrv
    cases hrv

example : (bucketThreads ratSqrt false true 1 2 1 1 [((3/2 : ℚ), (1/2 : ℚ)), (0, 0)] [(0, 0), (1, 1)]).map (fun r => (r.fwd, r.rev.map Prod.snd)) =
    (bucketMatch ratSqrt false true 1 [((3/2 : ℚ), (1/2 : ℚ)), (0, 0)] [(0, 0), (1, 1)]).map (fun r => (r.fwd, r.rev.map Prod.snd)) := by decide +kernel
example : (bucketThreads ratSqrt false true 1 2 0 1 [((3/2 : ℚ), (1/2 : ℚ))] [(0, 0), (1, 1)]).map (fun r => (r.fwd, r.rev.map Prod.snd)) = .abort := by decide +kernel

end Verif.Qx
