import Verif.Astro.Qxmatch
import Mathlib.Data.List.Induction
/-!
# Facts about the lists of neighbours
-/
namespace Verif.Qx
open Verif

section ins
variable {α β : Type} [LinearOrder β]

/-- insertion after the elements of smaller or equal key -/
def ins (key : α → β) (e : α) : List α → List α
  | [] => [e]
  | b :: l => if key e < key b then e :: b :: l else b :: ins key e l

theorem ins_length (key : α → β) (e : α) (l : List α) : (ins key e l).length = l.length + 1 := by
  induction l with
  | nil => rfl
  | cons b l ih => unfold ins; split <;> simp [ih]

theorem ins_perm (key : α → β) (e : α) (l : List α) : (ins key e l).Perm (e :: l) := by
  induction l with
  | nil => exact .refl _
  | cons b l ih =>
    unfold ins; split
    · exact .refl _
    · exact (ih.cons b).trans (.swap e b l)

theorem mem_ins {key : α → β} {e x : α} {l : List α} : x ∈ ins key e l ↔ x = e ∨ x ∈ l := by
  rw [(ins_perm key e l).mem_iff]; simp

theorem ins_sorted {key : α → β} {e : α} {l : List α} (h : l.Pairwise fun a b => key a ≤ key b) :
    (ins key e l).Pairwise fun a b => key a ≤ key b := by
  induction l with
  | nil => simp [ins]
  | cons b l ih =>
    rw [List.pairwise_cons] at h
    unfold ins; split
    · rename_i hlt
      rw [List.pairwise_cons, List.pairwise_cons]
      refine ⟨fun x hx => ?_, h⟩
      rcases List.mem_cons.1 hx with rfl | hx
      · exact hlt.le
      · exact hlt.le.trans (h.1 x hx)
    · rename_i hlt
      rw [List.pairwise_cons]
      refine ⟨fun x hx => ?_, ih h.2⟩
      rcases mem_ins.1 hx with rfl | hx
      · exact not_lt.1 hlt
      · exact h.1 x hx

theorem ins_append_lt (key : α → β) {e a : α} (p : List α) (h : key e < key a) : ins key e (p ++ [a]) = ins key e p ++ [a] := by
  induction p with
  | nil => simp [ins, h]
  | cons b p ih => simp only [List.cons_append, ins]; split <;> simp [ih]

theorem ins_end {key : α → β} {e : α} {l : List α} (h : ∀ b ∈ l, key b ≤ key e) : ins key e l = l ++ [e] := by
  induction l with
  | nil => rfl
  | cons b l ih =>
    unfold ins
    rw [if_neg (not_lt.2 (h b (by simp))), ih fun x hx => h x (by simp [hx])]; rfl

theorem ins_append_top {key : α → β} {e : α} {s t : List α} (h : ∀ b ∈ t, key e < key b) : ins key e (s ++ t) = ins key e s ++ t := by
  induction s with
  | nil => cases t with
    | nil => rfl
    | cons b t => simp [ins, h b (by simp)]
  | cons b s ih => simp only [List.cons_append, ins]; split <;> simp [ih]

theorem take_ins (key : α → β) (e : α) (l : List α) (n : Nat) : (ins key e (l.take n)).take n = (ins key e l).take n := by
  induction l generalizing n with
  | nil => simp
  | cons b l ih => cases n with
    | zero => simp
    | succ n =>
      simp only [List.take_succ_cons, ins]
      split
      · cases n <;> simp [List.take_take]
      · simp [ih]

theorem ins_map {γ : Type} (key : γ → β) (g : α → γ) (e : α) (l : List α) : ins key (g e) (l.map g) = (ins (key ∘ g) e l).map g := by
  induction l with
  | nil => rfl
  | cons b l ih =>
    simp only [List.map_cons, ins, Function.comp]
    split
    · rfl
    · rw [ih]; rfl

/-- the elements inserted one after the other -/
def isort (key : α → β) (l : List α) : List α := l.foldl (fun s e => ins key e s) []

theorem foldl_ins_perm (key : α → β) (l s : List α) : (l.foldl (fun s e => ins key e s) s).Perm (l ++ s) := by
  induction l generalizing s with
  | nil => exact .refl _
  | cons a l ih =>
    refine (ih _).trans (((ins_perm key a s).append_left l).trans ?_)
    exact List.perm_middle

theorem isort_perm (key : α → β) (l : List α) : (isort key l).Perm l := by
  simpa [isort] using foldl_ins_perm key l []

theorem foldl_ins_sorted {key : α → β} (l : List α) {s : List α} (h : s.Pairwise fun a b => key a ≤ key b) :
    (l.foldl (fun s e => ins key e s) s).Pairwise fun a b => key a ≤ key b := by
  induction l generalizing s with
  | nil => exact h
  | cons a l ih => exact ih (ins_sorted h)

theorem isort_sorted (key : α → β) (l : List α) : (isort key l).Pairwise fun a b => key a ≤ key b :=
  foldl_ins_sorted l List.Pairwise.nil

theorem isort_map {γ : Type} (key : γ → β) (g : α → γ) (l : List α) : isort key (l.map g) = (isort (key ∘ g) l).map g := by
  have : ∀ s : List α, (l.map g).foldl (fun s e => ins key e s) (s.map g) = (l.foldl (fun s e => ins (key ∘ g) e s) s).map g := by
    induction l with
    | nil => intro s; rfl
    | cons a l ih => intro s; simp only [List.map_cons, List.foldl_cons, ins_map, ih]
  exact this []

end ins

/-- nearer, or as near with a smaller index -/
def Closer {β : Type} [LinearOrder β] (d : Nat → β) (a b : Nat) : Prop := d a < d b ∨ (d a = d b ∧ a < b)

theorem ins_closer {β : Type} [LinearOrder β] {d : Nat → β} {e : Nat} {l : List Nat} (h : l.Pairwise (Closer d)) (hl : ∀ b ∈ l, b < e) :
    (ins d e l).Pairwise (Closer d) := by
  induction l with
  | nil => simp [ins]
  | cons b l ih =>
    rw [List.pairwise_cons] at h
    have hb : ∀ x ∈ l, d b ≤ d x := fun x hx => by
      rcases h.1 x hx with h | h
      · exact h.le
      · exact h.1.le
    unfold ins; split
    · rename_i hlt
      rw [List.pairwise_cons, List.pairwise_cons]
      refine ⟨fun x hx => ?_, h⟩
      rcases List.mem_cons.1 hx with rfl | hx
      · exact .inl hlt
      · exact .inl (hlt.trans_le (hb x hx))
    · rename_i hlt
      rw [List.pairwise_cons]
      refine ⟨fun x hx => ?_, ih h.2 fun x hx => hl x (by simp [hx])⟩
      rcases mem_ins.1 hx with rfl | hx
      · rcases (not_lt.1 hlt).lt_or_eq with h1 | h1
        · exact .inl h1
        · exact .inr ⟨h1, hl b (by simp)⟩
      · exact h.1 x hx

theorem isort_closer {β : Type} [LinearOrder β] {d : Nat → β} {l : List Nat} (h : l.Pairwise (· < ·)) : (isort d l).Pairwise (Closer d) := by
  have : ∀ s : List Nat, s.Pairwise (Closer d) → (∀ a ∈ s, ∀ b ∈ l, a < b) → (l.foldl (fun s e => ins d e s) s).Pairwise (Closer d) := by
    induction l with
    | nil => intro s hs _; exact hs
    | cons a l ih =>
      intro s hs hlt
      rw [List.pairwise_cons] at h
      refine ih h.2 _ (ins_closer hs fun b hb => hlt b hb a (by simp)) fun x hx b hb => ?_
      rcases mem_ins.1 hx with rfl | hx
      · exact h.1 b hb
      · exact hlt x hx b (by simp [hb])
  exact this [] List.Pairwise.nil (by simp)

/-! ### The code -/

variable {K : Type} [LinearOrder K]

/-- an entry for a source -/
def entry (d : Nat → K) (j : Nat) : Entry K := ((d j : K), some j)

theorem bubble_eq (p : List (Entry K)) (e : Entry K) (s : List (Entry K)) (hp : p.Pairwise fun a b => a.1 ≤ b.1) :
    bubble p.length (p ++ e :: s) = .ok (ins Prod.fst e p ++ s) := by
  induction p using List.reverseRecOn generalizing s with
  | nil => rfl
  | append_singleton p a ih =>
    rw [List.length_append, List.length_singleton, bubble]
    have h1 : Res.rd (p ++ [a] ++ e :: s) p.length = .ok a := by simp [Res.rd]
    have h2 : Res.rd (p ++ [a] ++ e :: s) (p.length + 1) = .ok e := by simp [Res.rd]
    simp only [h1, h2, Res.ok_bind]
    rw [List.pairwise_append] at hp
    split
    · rename_i hlt
      have : ((p ++ [a] ++ e :: s).set p.length e).set (p.length + 1) a = p ++ e :: a :: s := by
        simp [List.append_assoc, List.set_append]
      rw [this, ih (a :: s) hp.1, ins_append_lt _ _ hlt, List.append_assoc]; rfl
    · rename_i hlt
      rw [ins_end]
      · simp
      · intro b hb
        rcases List.mem_append.1 hb with hb | hb
        · exact (hp.2.2 b hb a (by simp)).trans (not_lt.1 hlt)
        · rw [List.mem_singleton.1 hb]; exact not_lt.1 hlt

theorem insertNth_eq {nth : Nat} (hn : 1 ≤ nth) {c : List (Entry K)} (hc : nth ≤ c.length)
    (hs : (c.take nth).Pairwise fun a b => a.1 ≤ b.1) (sd : K) (j : Nat) :
    insertNth nth c sd j = .ok ((ins Prod.fst ((sd : WithTop K), some j) (c.take nth)).take nth ++ c.drop nth) := by
  have hl : nth - 1 < c.length := by omega
  set e : Entry K := ((sd : WithTop K), some j) with he
  have hsplit : c.take nth = c.take (nth - 1) ++ [c[nth - 1]] := by
    conv_lhs => rw [show nth = nth - 1 + 1 by omega]
    rw [List.take_add_one, List.getElem?_eq_getElem hl]; rfl
  unfold insertNth
  rw [Verif.Res.rd_lt hl]
  simp only [Res.ok_bind]
  rw [hsplit] at hs ⊢
  have hlen : (c.take (nth - 1)).length = nth - 1 := by rw [List.length_take]; omega
  split
  · rename_i hlt
    have e1 : c.set (nth - 1) e = c.take (nth - 1) ++ e :: c.drop nth := by
      rw [List.set_eq_take_append_cons_drop, if_pos hl, show nth - 1 + 1 = nth by omega]
    have := bubble_eq (c.take (nth - 1)) e (c.drop nth) (List.pairwise_append.1 hs).1
    rw [hlen] at this
    rw [e1, this, ins_append_lt _ _ (by exact hlt), List.take_left']
    rw [ins_length, hlen]; omega
  · rename_i hlt
    rw [ins_end]
    · rw [List.take_left' (by rw [List.length_append, hlen, List.length_singleton]; omega), ← hsplit, List.take_append_drop]
    · intro b hb
      rcases List.mem_append.1 hb with hb | hb
      · exact ((List.pairwise_append.1 hs).2.2 b hb _ (by simp)).trans (not_lt.1 hlt)
      · rw [List.mem_singleton.1 hb]; exact not_lt.1 hlt

/-- the insertion of a sequence of sources, in any order and with any repetition -/
theorem insert_fold {nth : Nat} (hn : 1 ≤ nth) (d : Nat → K) (js : List Nat) : ∀ {c : List (Entry K)}, nth ≤ c.length →
    (c.take nth).Pairwise (fun a b => a.1 ≤ b.1) →
    js.foldlM (fun c j => insertNth nth c (d j) j) c =
      .ok (((js.map (entry d)).foldl (fun s e => ins Prod.fst e s) (c.take nth)).take nth ++ c.drop nth) := by
  induction js with
  | nil =>
    intro c hc hs
    simp [List.take_take]
  | cons j js ih =>
    intro c hc hs
    rw [List.foldlM_cons, insertNth_eq hn hc hs, Res.ok_bind]
    set e : Entry K := ((d j : WithTop K), some j) with he
    have hlen : ((ins Prod.fst e (c.take nth)).take nth).length = nth := by
      rw [List.length_take, ins_length, List.length_take]; omega
    have ht : ((ins Prod.fst e (c.take nth)).take nth ++ c.drop nth).take nth = (ins Prod.fst e (c.take nth)).take nth :=
      List.take_left' hlen
    have hd : ((ins Prod.fst e (c.take nth)).take nth ++ c.drop nth).drop nth = c.drop nth := List.drop_left' hlen
    rw [ih (by rw [List.length_append, hlen]; omega) (by rw [ht]; exact (ins_sorted hs).take), ht, hd]
    simp only [List.map_cons, List.foldl_cons]
    congr 2
    have aux : ∀ (l : List (Entry K)) (a b : List (Entry K)), a.take nth = b.take nth →
        (l.foldl (fun s e => ins Prod.fst e s) a).take nth = (l.foldl (fun s e => ins Prod.fst e s) b).take nth := by
      intro l
      induction l with
      | nil => intro a b h; exact h
      | cons x l ih2 =>
        intro a b h
        refine ih2 _ _ ?_
        rw [← take_ins, h, take_ins]
    refine aux _ _ _ ?_
    rw [List.take_take, Nat.min_self]; rfl

theorem foldl_ins_top {d : Nat → K} (js : List Nat) (s : List (Entry K)) (n : Nat) :
    (js.map (entry d)).foldl (fun s e => ins Prod.fst e s) (s ++ List.replicate n noMatch) =
      (js.map (entry d)).foldl (fun s e => ins Prod.fst e s) s ++ List.replicate n noMatch := by
  induction js generalizing s with
  | nil => rfl
  | cons j js ih =>
    simp only [List.map_cons, List.foldl_cons]
    rw [ins_append_top, ih]
    intro b hb
    rw [List.eq_of_mem_replicate hb]
    exact WithTop.coe_lt_top _

/-- the list of neighbours after a sequence of insertions in an empty column -/
theorem insert_fold_init {nth m : Nat} (hn : 1 ≤ nth) (hm : nth ≤ m) (d : Nat → K) (js : List Nat) :
    js.foldlM (fun c j => insertNth nth c (d j) j) (List.replicate m noMatch) =
      .ok (((isort d js).take nth).map (entry d) ++ List.replicate (m - (min nth js.length)) noMatch) := by
  rw [insert_fold hn d js (by simpa using hm) (by
    rw [List.take_replicate]
    exact List.pairwise_replicate.2 (.inr le_rfl))]
  congr 1
  have h1 := foldl_ins_top (d := d) js [] nth
  rw [List.nil_append] at h1
  rw [List.take_replicate, Nat.min_eq_left hm, h1]
  have h2 : (js.map (entry d)).foldl (fun s e => ins Prod.fst e s) [] = (isort d js).map (entry d) := by
    have := isort_map (Prod.fst : Entry K → WithTop K) (entry d) js
    have h3 : isort (Prod.fst ∘ entry d) js = isort d js := by
      unfold isort
      congr 1
      funext s e
      induction s with
      | nil => rfl
      | cons b s ih => simp only [ins, Function.comp, entry, WithTop.coe_lt_coe] at ih ⊢; rw [ih]
    rw [h3] at this
    exact this
  rw [h2]
  have hl : (isort d js).length = js.length := (isort_perm d js).length_eq
  rw [List.take_append, List.map_take, List.take_replicate, List.length_map, hl, List.drop_replicate, List.append_assoc,
    List.replicate_append_replicate]
  congr 2
  omega

end Verif.Qx
