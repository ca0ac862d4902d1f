import Verif.Astro.QxLemmas
import Mathlib.Data.List.Nodup
/-!
# The loops of the brute-force search
-/
namespace Verif.Qx
open Verif

variable {K : Type} [LinearOrder K]

/-- the pairs that are compared -/
def allowed (self : Bool) (i j : Nat) : Bool := !(self && i == j)

/-- the update of a reverse match -/
def revUpd (d : K) (i : Nat) (e : Entry K) : Entry K := if (d : WithTop K) < e.1 then ((d : WithTop K), some i) else e

/-- the column of a source once the sources `js` were looked at -/
def colOf (d : Nat → K) (nth : Nat) (js : List Nat) : List (Entry K) :=
  ((isort d js).take nth).map (entry d) ++ List.replicate (nth - min nth js.length) noMatch

/-- the forward part of a row for a list `js` of sources -/
theorem row_eq (dist : Nat → Nat → K) (mirror self : Bool) (nth i : Nat) (hn : 1 ≤ nth) (js : List Nat) (hnd : js.Nodup) :
    ∀ (r : XRes K) (c : List (Entry K)), r.fwd[i]? = some c → c.length = nth → c.Pairwise (fun a b => a.1 ≤ b.1) →
    (∀ j ∈ js, j < r.rev.length) →
    ∃ r' c', js.foldlM (fun r j => if self && i == j then .ok r else work dist mirror nth i j r) r = .ok r' ∧
      (js.filter (allowed self i)).foldlM (fun c j => insertNth nth c (dist i j) j) c = .ok c' ∧
      r'.fwd = r.fwd.set i c' ∧ r'.rev.length = r.rev.length ∧
      ∀ j, r'.rev[j]? = (r.rev[j]?).map fun e => if mirror && decide (j ∈ js) && allowed self i j then revUpd (dist i j) i e else e := by
  induction js with
  | nil =>
    intro r c hc hl hs hj
    refine ⟨r, c, rfl, rfl, ?_, rfl, fun j => by simp⟩
    obtain ⟨h, rfl⟩ := List.getElem?_eq_some_iff.1 hc
    exact (List.set_getElem_self h).symm
  | cons a js ih =>
    intro r c hc hl hs hj
    rw [List.nodup_cons] at hnd
    rw [List.foldlM_cons]
    by_cases hsk : (self && i == a) = true
    · rw [if_pos hsk, Res.ok_bind]
      obtain ⟨r', c', h1, h2, h3, h4, h5⟩ := ih hnd.2 r c hc hl hs fun j hjj => hj j (by simp [hjj])
      have hal : allowed self i a = false := by simp only [allowed, hsk]; rfl
      refine ⟨r', c', h1, ?_, h3, h4, fun j => ?_⟩
      · rw [List.filter_cons_of_neg (by simp [hal])]; exact h2
      · rw [h5 j]
        congr 1; funext e
        by_cases hja : j = a
        · subst hja; simp [hal]
        · simp [hja]
    · rw [if_neg hsk]
      have hal : allowed self i a = true := by
        simp only [allowed]; rw [Bool.not_eq_true] at hsk; rw [hsk]; rfl
      obtain ⟨hi, rfl⟩ := List.getElem?_eq_some_iff.1 hc
      have ha := hj a (by simp)
      have hins := insertNth_eq hn (c := r.fwd[i]) (by omega) hs.take (dist i a) a
      rw [show r.fwd[i].take nth = r.fwd[i] from List.take_of_length_le (by omega), List.drop_of_length_le (by omega), List.append_nil] at hins
      set c1 := (ins Prod.fst (((dist i a : K) : WithTop K), some a) r.fwd[i]).take nth with hc1
      have hl1 : c1.length = nth := by rw [hc1, List.length_take, ins_length]; omega
      have hs1 : c1.Pairwise fun a b => a.1 ≤ b.1 := (ins_sorted hs).take
      have hw : work dist mirror nth i a r = .ok ⟨r.fwd.set i c1, if mirror then r.rev.set a (revUpd (dist i a) i r.rev[a]) else r.rev⟩ := by
        unfold work
        rw [Verif.Res.rd_lt hi]
        simp only [Res.ok_bind, hins]
        cases mirror
        · rfl
        · simp only [if_true]
          rw [Verif.Res.rd_lt ha]
          simp only [Res.ok_bind, revUpd]
          split
          · rfl
          · simp
      rw [hw, Res.ok_bind]
      have hrl : (if mirror then r.rev.set a (revUpd (dist i a) i r.rev[a]) else r.rev).length = r.rev.length := by split <;> simp
      obtain ⟨r', c', h1, h2, h3, h4, h5⟩ := ih hnd.2 ⟨r.fwd.set i c1, if mirror then r.rev.set a (revUpd (dist i a) i r.rev[a]) else r.rev⟩
        c1 (by simp [hi]) hl1 hs1 (fun j hjj => by simp only [hrl]; exact hj j (by simp [hjj]))
      refine ⟨r', c', h1, ?_, ?_, by rw [h4]; exact hrl, fun j => ?_⟩
      · rw [List.filter_cons_of_pos hal, List.foldlM_cons, hins, Res.ok_bind]; exact h2
      · rw [h3]; simp
      · rw [h5 j]
        simp only
        by_cases hja : j = a
        · subst hja
          cases mirror
          · simp
          · simp only [if_true, List.getElem?_set_self ha, Option.map_some, List.getElem?_eq_getElem ha]
            simp [hnd.1, hal]
        · cases mirror
          · simp
          · simp only [if_true, List.getElem?_set_ne (Ne.symm hja)]
            simp [hja]

/-- the reverse match of `j` once the sources `is` were looked at -/
def revFold (dist : Nat → Nat → K) (self : Bool) (j : Nat) (is : List Nat) (e : Entry K) : Entry K :=
  is.foldl (fun e i => if allowed self i j then revUpd (dist i j) i e else e) e

theorem colOf_ok (d : Nat → K) {nth : Nat} (hn : 1 ≤ nth) (js : List Nat) :
    js.foldlM (fun c j => insertNth nth c (d j) j) (List.replicate nth noMatch) = .ok (colOf d nth js) :=
  insert_fold_init hn le_rfl d js

theorem rows_eq (dist : Nat → Nat → K) (mirror self : Bool) (nth n2 : Nat) (hn : 1 ≤ nth) (is : List Nat) (hnd : is.Nodup) :
    ∀ r : XRes K, (∀ i ∈ is, r.fwd[i]? = some (List.replicate nth noMatch)) → r.rev.length = n2 →
    ∃ r', rows dist mirror self nth n2 is r = .ok r' ∧ r'.fwd.length = r.fwd.length ∧
      (∀ i, r'.fwd[i]? = if i ∈ is then some (colOf (dist i) nth ((List.range n2).filter (allowed self i))) else r.fwd[i]?) ∧
      r'.rev.length = n2 ∧ ∀ j, r'.rev[j]? = (r.rev[j]?).map fun e => if mirror then revFold dist self j is e else e := by
  induction is with
  | nil => intro r _ hl; exact ⟨r, rfl, rfl, fun i => by simp, hl, fun j => by simp [revFold]⟩
  | cons a is ih =>
    intro r hr hl
    rw [List.nodup_cons] at hnd
    obtain ⟨r1, c1, h1, h2, h3, h4, h5⟩ := row_eq dist mirror self nth a hn (List.range n2) List.nodup_range r _ (hr a (by simp))
      (by simp) (List.pairwise_replicate.2 (.inr le_rfl)) (fun j hj => by rw [hl]; exact List.mem_range.1 hj)
    rw [colOf_ok (dist a) hn] at h2
    injection h2 with h2
    obtain ⟨r', g1, g0, g2, g3, g4⟩ := ih hnd.2 r1 (fun i hi => by
      rw [h3, List.getElem?_set_ne (by rintro rfl; exact hnd.1 hi)]; exact hr i (by simp [hi])) (by rw [h4, hl])
    refine ⟨r', ?_, by rw [g0, h3, List.length_set], fun i => ?_, g3, fun j => ?_⟩
    · unfold rows at g1 ⊢
      rw [List.foldlM_cons, h1, Res.ok_bind]; exact g1
    · rw [g2, h3]
      have ha : a < r.fwd.length := (List.getElem?_eq_some_iff.1 (hr a (by simp))).1
      by_cases hia : i = a
      · subst hia; simp [hnd.1, ha, h2]
      · rw [List.getElem?_set_ne (Ne.symm hia)]; simp [hia]
    · rw [g4, h5, Option.map_map]
      by_cases hj : j < n2
      · congr 1; funext e
        cases mirror
        · simp
        · simp [revFold, hj]
      · rw [List.getElem?_eq_none (by omega)]; rfl

/-- the nearest source with the smallest index among `is`, for the source `j` -/
def FirstNearest (d : Nat → K) (C : Nat → Prop) (e : Entry K) : Prop :=
  (e = (⊤, none) ∧ ∀ i, ¬ C i) ∨ ∃ i, C i ∧ e = (((d i : K) : WithTop K), some i) ∧ ∀ k, C k → d i < d k ∨ (d i = d k ∧ i ≤ k)

theorem revFold_spec (dist : Nat → Nat → K) (self : Bool) (j : Nat) (is : List Nat) (hs : is.Pairwise (· < ·)) :
    FirstNearest (fun i => dist i j) (fun i => i ∈ is ∧ allowed self i j = true) (revFold dist self j is noMatch) := by
  induction is using List.reverseRecOn with
  | nil => exact .inl ⟨rfl, by simp⟩
  | append_singleton is a ih =>
    rw [List.pairwise_append] at hs
    have e1 : revFold dist self j (is ++ [a]) noMatch = if allowed self a j then revUpd (dist a j) a (revFold dist self j is noMatch)
      else revFold dist self j is noMatch := by simp [revFold]
    rw [e1]
    by_cases hal : allowed self a j = true
    · rw [if_pos hal]
      rcases ih hs.1 with ⟨h1, h2⟩ | ⟨i, h1, h2, h3⟩
      · rw [h1]
        refine .inr ⟨a, ⟨by simp, hal⟩, by simp [revUpd], fun k hk => ?_⟩
        rcases List.mem_append.1 hk.1 with hk' | hk'
        · exact absurd ⟨hk', hk.2⟩ (h2 k)
        · rw [List.mem_singleton.1 hk']; exact .inr ⟨rfl, le_rfl⟩
      · rw [h2, revUpd]
        simp only [WithTop.coe_lt_coe]
        split
        · rename_i hlt
          refine .inr ⟨a, ⟨by simp, hal⟩, rfl, fun k hk => ?_⟩
          rcases List.mem_append.1 hk.1 with hk' | hk'
          · rcases h3 k ⟨hk', hk.2⟩ with h | h
            · exact .inl (hlt.trans h)
            · exact .inl (h.1 ▸ hlt)
          · rw [List.mem_singleton.1 hk']; exact .inr ⟨rfl, le_rfl⟩
        · rename_i hlt
          refine .inr ⟨i, ⟨by simp [h1.1], h1.2⟩, rfl, fun k hk => ?_⟩
          rcases List.mem_append.1 hk.1 with hk' | hk'
          · exact h3 k ⟨hk', hk.2⟩
          · rw [List.mem_singleton.1 hk']
            rcases (not_lt.1 hlt).lt_or_eq with h | h
            · exact .inl h
            · exact .inr ⟨h, (hs.2.2 i h1.1 a (by simp)).le⟩
    · rw [if_neg hal]
      have : ∀ k, (k ∈ is ++ [a] ∧ allowed self k j = true) ↔ (k ∈ is ∧ allowed self k j = true) := by
        intro k
        constructor
        · rintro ⟨hk, hk2⟩
          rcases List.mem_append.1 hk with hk' | hk'
          · exact ⟨hk', hk2⟩
          · rw [List.mem_singleton.1 hk'] at hk2; exact absurd hk2 hal
        · rintro ⟨hk, hk2⟩; exact ⟨by simp [hk], hk2⟩
      simp only [this]
      exact ih hs.1

/-! ### Threads -/

theorem mem_chunk {n1 nt as t i : Nat} : i ∈ chunk n1 nt as t ↔ t * as ≤ i ∧ i < t * as + if t = nt - 1 then n1 - t * as else as := by
  simp [chunk, List.mem_range'_1]

theorem chunk_lt {n1 nt as t i : Nat} (ht : t < nt) (h : as * (nt - 1) ≤ n1) (hi : i ∈ chunk n1 nt as t) : i < n1 := by
  rw [mem_chunk] at hi
  split at hi
  · omega
  · have h1 : (t + 1) * as ≤ (nt - 1) * as := Nat.mul_le_mul_right _ (by omega)
    have : as * (nt - 1) = (nt - 1) * as := Nat.mul_comm _ _
    have : (t + 1) * as = t * as + as := Nat.succ_mul _ _
    omega

/-- every source is given to exactly one thread -/
theorem chunk_cover {n1 nt as i : Nat} (hnt : 1 ≤ nt) (h : as * (nt - 1) ≤ n1) (hi : i < n1) : ∃ t, t < nt ∧ i ∈ chunk n1 nt as t := by
  by_cases hl : (nt - 1) * as ≤ i
  · refine ⟨nt - 1, by omega, mem_chunk.2 ⟨hl, ?_⟩⟩
    rw [if_pos rfl]; omega
  · have has : 0 < as := by
      rcases Nat.eq_zero_or_pos as with rfl | h
      · simp at hl
      · exact h
    have hd := Nat.div_add_mod i as
    have hm := Nat.mod_lt i has
    have h2 : i / as < nt - 1 := by
      rw [Nat.div_lt_iff_lt_mul has]; omega
    refine ⟨i / as, by omega, mem_chunk.2 ⟨by rw [Nat.mul_comm]; omega, ?_⟩⟩
    rw [if_neg (by omega), Nat.mul_comm]; omega

theorem checkRange_chunk {n1 nt as t : Nat} (ht : t < nt) (h0 : 1 ≤ as) (h : as * (nt - 1) < n1) (hW : n1 < 2 ^ 64) : checkRange n1 (t * as) (chunk n1 nt as t).length = .ok () := by
  have e : as * (nt - 1) = (nt - 1) * as := Nat.mul_comm _ _
  have h1 : t * as ≤ (nt - 1) * as := Nat.mul_le_mul_right _ (by omega)
  have hl : 1 ≤ (chunk n1 nt as t).length ∧ t * as + (chunk n1 nt as t).length ≤ n1 := by
    unfold chunk
    rw [List.length_range']
    split
    · rename_i h2
      subst h2
      omega
    · have h3 : (t + 1) * as ≤ (nt - 1) * as := Nat.mul_le_mul_right _ (by omega)
      have : (t + 1) * as = t * as + as := Nat.succ_mul _ _
      omega
  unfold checkRange
  rw [if_pos]
  generalize (chunk n1 nt as t).length = l at hl
  constructor
  · rw [show t * as + l + 2 ^ 64 - 1 = (t * as + l - 1) + 2 ^ 64 by omega, Nat.add_mod_right, Nat.mod_eq_of_lt (by omega)]
    omega
  · omega

theorem checkRange_empty (n : Nat) (hW : n < 2 ^ 64) : checkRange n 0 0 = .abort := by
  unfold checkRange
  rw [if_neg]
  rw [show (0 + 0 + 2 ^ 64 - 1) % 2 ^ 64 = 2 ^ 64 - 1 by decide]
  omega

theorem merge_fwd (ids : List Nat) (v : List (List (Entry K))) : ∀ f : List (List (Entry K)), f.length = v.length → (∀ i ∈ ids, i < v.length) →
    ∃ f', ids.foldlM (fun (f : List (List (Entry K))) i => do
      let c ← Res.rd v i
      if i < f.length then .ok (f.set i c) else .ub) f = .ok f' ∧ f'.length = v.length ∧
      ∀ i, f'[i]? = if i ∈ ids then v[i]? else f[i]? := by
  induction ids with
  | nil => intro f hf _; exact ⟨f, rfl, hf, fun i => by simp⟩
  | cons a ids ih =>
    intro f hf hi
    have ha := hi a (by simp)
    obtain ⟨f', h1, h2, h3⟩ := ih (f.set a v[a]) (by simp [hf]) fun i h => hi i (by simp [h])
    refine ⟨f', ?_, h2, fun i => ?_⟩
    · rw [List.foldlM_cons, Verif.Res.rd_lt ha, Res.ok_bind, if_pos (by omega), Res.ok_bind]; exact h1
    · rw [h3]
      by_cases hia : i = a
      · subst hia
        by_cases hm : i ∈ ids
        · simp [hm]
        · simp [hm, hf, ha]
      · rw [List.getElem?_set_ne (Ne.symm hia)]; simp [hia]

theorem mergeRev_get (r v : List (Entry K)) (h : r.length = v.length) (j : Nat) :
    (mergeRev r v)[j]? = (r[j]?).bind fun a => (v[j]?).map fun b => if b.1 ≤ a.1 then b else a := by
  unfold mergeRev
  rw [List.getElem?_map]
  by_cases hj : j < r.length
  · have h2 : j < v.length := by omega
    have h3 : j < (r.zip v).length := by rw [List.length_zip]; omega
    rw [List.getElem?_eq_getElem h3, List.getElem?_eq_getElem hj, List.getElem?_eq_getElem h2]; simp
  · rw [List.getElem?_eq_none (show (r.zip v).length ≤ j by rw [List.length_zip]; omega),
      List.getElem?_eq_none (show r.length ≤ j by omega)]; rfl

/-- a nearest source, whichever its index -/
def SomeNearest (d : Nat → K) (C : Nat → Prop) (e : Entry K) : Prop :=
  (e = (⊤, none) ∧ ∀ i, ¬ C i) ∨ ∃ i, C i ∧ e = (((d i : K) : WithTop K), some i) ∧ ∀ k, C k → d i ≤ d k

theorem FirstNearest.some {d : Nat → K} {C : Nat → Prop} {e : Entry K} (h : FirstNearest d C e) : SomeNearest d C e := by
  rcases h with h | ⟨i, h1, h2, h3⟩
  · exact .inl h
  · refine .inr ⟨i, h1, h2, fun k hk => ?_⟩
    rcases h3 k hk with h | h
    · exact h.le
    · exact h.1.le

theorem SomeNearest.merge {d : Nat → K} {C D : Nat → Prop} {a b : Entry K} (ha : SomeNearest d C a) (hb : SomeNearest d D b) :
    SomeNearest d (fun i => C i ∨ D i) (if b.1 ≤ a.1 then b else a) := by
  rcases ha with ⟨rfl, h2⟩ | ⟨i, h1, rfl, h3⟩ <;> rcases hb with ⟨rfl, g2⟩ | ⟨k, g1, rfl, g3⟩
  · exact .inl ⟨by simp, fun i => by simp [h2, g2]⟩
  · rw [if_pos le_top]
    exact .inr ⟨k, .inr g1, rfl, fun l hl => hl.elim (fun h => absurd h (h2 l)) (g3 l)⟩
  · rw [if_neg (by simp)]
    exact .inr ⟨i, .inl h1, rfl, fun l hl => hl.elim (h3 l) (fun h => absurd h (g2 l))⟩
  · simp only [WithTop.coe_le_coe]
    split
    · rename_i hle
      exact .inr ⟨k, .inr g1, rfl, fun l hl => hl.elim (fun h => hle.trans (h3 l h)) (g3 l)⟩
    · rename_i hle
      exact .inr ⟨i, .inl h1, rfl, fun l hl => hl.elim (h3 l) (fun h => (not_le.1 hle).le.trans (g3 l h))⟩

theorem init_fwd {nth n1 n2 i : Nat} (h : i < n1) : (XRes.init nth n1 n2 : XRes K).fwd[i]? = some (List.replicate nth noMatch) := by
  simp [XRes.init, h]

theorem threads_eq (dist : Nat → Nat → K) (mirror self : Bool) (nth n1 n2 nt as : Nat) (hn : 1 ≤ nth) (h0 : 1 ≤ as) (h' : as * (nt - 1) < n1) (hW : n1 < 2 ^ 64) :
    ∀ m ≤ nt, ∃ r', (List.range m).foldlM (fun r t => do
      let v ← rows dist mirror self nth n2 (chunk n1 nt as t) (XRes.init nth n1 n2)
      mergeOne mirror t (t * as) (chunk n1 nt as t) r v) (XRes.init nth n1 n2) = .ok r' ∧ r'.fwd.length = n1 ∧ r'.rev.length = n2 ∧
      (∀ i, (∃ t, t < m ∧ i ∈ chunk n1 nt as t) → r'.fwd[i]? = some (colOf (dist i) nth ((List.range n2).filter (allowed self i)))) ∧
      (mirror = false → r'.rev = List.replicate n2 noMatch) ∧
      (mirror = true → ∀ j e, r'.rev[j]? = some e →
        SomeNearest (fun i => dist i j) (fun i => (∃ t, t < m ∧ i ∈ chunk n1 nt as t) ∧ allowed self i j = true) e) := by
  intro m hm
  have h := h'.le
  induction m with
  | zero =>
    refine ⟨_, rfl, by simp [XRes.init], by simp [XRes.init], fun i hi => absurd hi (by simp), fun _ => rfl, fun _ j e he => ?_⟩
    refine .inl ⟨?_, by simp⟩
    simp only [XRes.init, List.getElem?_replicate] at he
    split at he <;> simp_all [noMatch]
  | succ m ih =>
    obtain ⟨r, h1, h2, h3, h4, h5, h6⟩ := ih (by omega)
    have hlt : ∀ i ∈ chunk n1 nt as m, i < n1 := fun i hi => chunk_lt (by omega) h hi
    obtain ⟨v, g1, g0, g2, g3, g4⟩ := rows_eq dist mirror self nth n2 hn (chunk n1 nt as m) (by unfold chunk; exact List.nodup_range')
      (XRes.init nth n1 n2) (fun i hi => init_fwd (hlt i hi)) (by simp [XRes.init])
    have g0' : v.fwd.length = n1 := by rw [g0]; simp [XRes.init]
    obtain ⟨f, k1, k2, k3⟩ := merge_fwd (chunk n1 nt as m) v.fwd r.fwd (by rw [h2, g0']) fun i hi => by rw [g0']; exact hlt i hi
    have hv : mirror = true → ∀ j e, v.rev[j]? = some e → SomeNearest (fun i => dist i j)
        (fun i => i ∈ chunk n1 nt as m ∧ allowed self i j = true) e := by
      intro hm j e he
      rw [g4, hm] at he
      have hj : j < n2 := by
        by_contra hc
        rw [List.getElem?_eq_none (by simp [XRes.init]; omega)] at he
        simp at he
      have h0 : (XRes.init nth n1 n2 : XRes K).rev[j]? = some noMatch := by simp [XRes.init, hj]
      rw [h0] at he
      simp only [if_true, Option.map_some, Option.some.injEq] at he
      rw [← he]
      exact (revFold_spec dist self j _ (by unfold chunk; exact List.pairwise_lt_range')).some
    refine ⟨⟨f, if mirror then (if m = 0 then v.rev else mergeRev r.rev v.rev) else r.rev⟩, ?_, by simp [k2, g0'], ?_, ?_, ?_, ?_⟩
    · rw [List.range_succ, List.foldlM_append, h1, Res.ok_bind, List.foldlM_cons, g1, Res.ok_bind, mergeOne, h2, checkRange_chunk (by omega) h0 h' hW, Res.ok_bind, k1]; rfl
    · simp only
      split
      · split
        · exact g3
        · simp [mergeRev, h3, g3]
      · exact h3
    · intro i hi
      rw [k3]
      split
      · rename_i hc
        rw [g2, if_pos hc]
      · rename_i hc
        obtain ⟨t, ht, hit⟩ := hi
        refine h4 i ⟨t, ?_, hit⟩
        rcases Nat.lt_succ_iff_lt_or_eq.1 ht with h | rfl
        · exact h
        · exact absurd hit hc
    · intro hf; simp [hf, h5 hf]
    · intro ht j e he
      simp only [ht, if_true] at he
      have hset : ∀ i, (((∃ t, t < m ∧ i ∈ chunk n1 nt as t) ∧ allowed self i j = true) ∨ (i ∈ chunk n1 nt as m ∧ allowed self i j = true)) ↔
          ((∃ t, t < m + 1 ∧ i ∈ chunk n1 nt as t) ∧ allowed self i j = true) := by
        intro i
        constructor
        · rintro (⟨⟨t, h1, h2⟩, h3⟩ | ⟨h2, h3⟩)
          · exact ⟨⟨t, by omega, h2⟩, h3⟩
          · exact ⟨⟨m, by omega, h2⟩, h3⟩
        · rintro ⟨⟨t, h1, h2⟩, h3⟩
          rcases Nat.lt_succ_iff_lt_or_eq.1 h1 with h | rfl
          · exact .inl ⟨⟨t, h, h2⟩, h3⟩
          · exact .inr ⟨h2, h3⟩
      simp only [← hset]
      split at he
      · rename_i hm0
        subst hm0
        have := hv ht j e he
        simpa using this
      · rw [mergeRev_get _ _ (by rw [h3, g3])] at he
        by_cases hj : j < n2
        · rw [List.getElem?_eq_getElem (by omega), List.getElem?_eq_getElem (by omega)] at he
          simp only [Option.bind_some, Option.map_some, Option.some.injEq] at he
          rw [← he]
          exact (h6 ht j _ (List.getElem?_eq_getElem (by omega))).merge (hv ht j _ (List.getElem?_eq_getElem (by omega)))
        · rw [List.getElem?_eq_none (by omega)] at he; simp at he

end Verif.Qx
