import Verif.Core.Reflex
import Mathlib.Tactic.Common

/-! # Copying and selecting the members of structures: C197 -/

namespace Verif.Reflex

variable {α : Type}

/-! ### Helpers -/

/-- members after members -/
def S.app : S α → S α → S α
  | .nil, t => t
  | .leaf n ty dim rows rest, t => .leaf n ty dim rows (rest.app t)
  | .sub n ms rest, t => .sub n ms (rest.app t)

theorem app_assoc (p q t : S α) : (p.app q).app t = p.app (q.app t) := by
  induction p with
  | nil => rfl
  | leaf n ty dim rows rest ih => simp only [S.app, ih]
  | sub n ms rest _ ih => simp only [S.app, ih]

theorem names_app (p q : S α) : (p.app q).names = p.names ++ q.names := by
  induction p with
  | nil => rfl
  | leaf n ty dim rows rest ih => simp only [S.app, S.names, ih, List.cons_append]
  | sub n ms rest _ ih => simp only [S.app, S.names, ih, List.cons_append]

theorem subs_app (p q : S α) : (p.app q).subs = p.subs ++ q.subs := by
  induction p with
  | nil => rfl
  | leaf n ty dim rows rest ih => simp only [S.app, S.subs, ih]
  | sub n ms rest _ ih => simp only [S.app, S.subs, ih, List.cons_append]

theorem names_blank (t : S α) : t.blank.names = t.names := by
  induction t with
  | nil => rfl
  | leaf n ty dim rows rest ih => simp only [S.blank, S.names, ih]
  | sub n ms rest _ ih => simp only [S.blank, S.names, ih]

theorem subs_blank (t : S α) : t.blank.subs = t.subs.map S.blank := by
  induction t with
  | nil => rfl
  | leaf n ty dim rows rest ih => simp only [S.blank, S.subs, ih]
  | sub n ms rest _ ih => simp only [S.blank, S.subs, ih, List.map_cons]

theorem apart_congr (u : S α) : ∀ t t' : S α, t.blank = t'.blank → u.Apart t → u.Apart t' := by
  induction u with
  | nil => intro _ _ _ _; trivial
  | leaf m ty dim rows rest ih =>
    intro t t' e h
    refine ⟨?_, ih t t' e h.2⟩
    rw [← names_blank, ← e, names_blank]
    exact h.1
  | sub m us rest ih1 ih2 =>
    intro t t' e h
    refine ⟨?_, fun ts hts => ?_, ih2 t t' e h.2.2⟩
    · rw [← names_blank, ← e, names_blank]
      exact h.1
    · have : ts.blank ∈ t.subs.map S.blank := by
        rw [← subs_blank, e, subs_blank]
        exact List.mem_map_of_mem hts
      obtain ⟨ts0, h0, e0⟩ := List.mem_map.1 this
      exact ih1 ts0 ts e0 (h.2.1 ts0 h0)

theorem runLeaf_notin {m : String} {ty dim : Nat} {c : Res (List α)} {t : S α} (h : m ∉ t.names) : runLeaf m ty dim c t = .ok t := by
  induction t with
  | nil => rfl
  | leaf n ty' dim' rows rest ih =>
    simp only [S.names, List.mem_cons, not_or] at h
    unfold runLeaf
    rw [ih h.2]
    split
    · rw [if_neg h.1]; rfl
    · rw [Res.check_pos h.1]; rfl
  | sub n ms rest _ ih =>
    simp only [S.names, List.mem_cons, not_or] at h
    unfold runLeaf
    rw [ih h.2, Res.check_pos h.1]; rfl

theorem runLeaf_app {m : String} {ty dim : Nat} {c : Res (List α)} {p t : S α} (h : m ∉ p.names) :
    runLeaf m ty dim c (p.app t) = runLeaf m ty dim c t >>= fun t => .ok (p.app t) := by
  induction p with
  | nil =>
    simp only [S.app]
    cases runLeaf m ty dim c t <;> rfl
  | leaf n ty' dim' rows rest ih =>
    simp only [S.names, List.mem_cons, not_or] at h
    simp only [S.app]
    conv_lhs => unfold runLeaf
    rw [ih h.2]
    split
    · rw [if_neg h.1]
      cases runLeaf m ty dim c t <;> rfl
    · rw [Res.check_pos h.1]
      cases runLeaf m ty dim c t <;> rfl
  | sub n ms rest _ ih =>
    simp only [S.names, List.mem_cons, not_or] at h
    simp only [S.app]
    conv_lhs => unfold runLeaf
    rw [ih h.2, Res.check_pos h.1]
    cases runLeaf m ty dim c t <;> rfl

theorem runSub_app {m : String} {g : S α → Res (S α)} {p t : S α} (h : m ∉ p.names) (hg : ∀ s ∈ p.subs, g s = .ok s) :
    runSub m g (p.app t) = runSub m g t >>= fun t => .ok (p.app t) := by
  induction p with
  | nil =>
    simp only [S.app]
    cases runSub m g t <;> rfl
  | leaf n ty' dim' rows rest ih =>
    simp only [S.names, List.mem_cons, not_or] at h
    simp only [S.app]
    conv_lhs => unfold runSub
    rw [ih h.2 hg, Res.check_pos h.1]
    cases runSub m g t <;> rfl
  | sub n ms rest _ ih =>
    simp only [S.names, List.mem_cons, not_or] at h
    simp only [S.app]
    conv_lhs => unfold runSub
    rw [hg ms (by simp [S.subs]), ih h.2 (fun s hs => hg s (by simp [S.subs, hs]))]
    cases runSub m g t <;> rfl

theorem app_nil (t : S α) : t.app .nil = t := by
  induction t with
  | nil => rfl
  | leaf n ty dim rows rest ih => simp only [S.app, ih]
  | sub n ms rest _ ih => simp only [S.app, ih]

theorem runSub_same {m : String} {g : S α → Res (S α)} {t : S α} (h : m ∉ t.names) (hg : ∀ s ∈ t.subs, g s = .ok s) : runSub m g t = .ok t := by
  have := runSub_app (t := .nil) h hg
  rw [app_nil] at this
  rw [this]
  show Res.ok (t.app .nil) = _
  rw [app_nil]

/-- nothing is copied between structures that are apart -/
theorem merge_apart (ids : Option (List Nat)) (u : S α) : ∀ t : S α, u.Apart t → merge ids u t = .ok t := by
  induction u with
  | nil => intro t _; rfl
  | leaf m ty dim rows rest ih =>
    intro t h
    unfold merge
    rw [runLeaf_notin h.1]
    exact ih t h.2
  | sub m us rest ih1 ih2 =>
    intro t h
    unfold merge
    rw [runSub_same h.1 (fun s hs => ih1 s (h.2.1 s hs))]
    exact ih2 t h.2.2

theorem apart_app {u p q : S α} (hp : u.Apart p) (hq : u.Apart q) : u.Apart (p.app q) := by
  induction u with
  | nil => trivial
  | leaf m ty dim rows rest ih =>
    refine ⟨?_, ih hp.2 hq.2⟩
    rw [names_app]
    simp [hp.1, hq.1]
  | sub m us rest _ ih =>
    refine ⟨?_, fun ts hts => ?_, ih hp.2.2 hq.2.2⟩
    · rw [names_app]
      simp [hp.1, hq.1]
    · rw [subs_app, List.mem_append] at hts
      exact hts.elim (hp.2.1 ts) (hq.2.1 ts)

theorem apart_leaf {u : S α} {m : String} {ty dim : Nat} {rows : List α} (h : m ∉ u.names) : u.Apart (.leaf m ty dim rows .nil) := by
  induction u with
  | nil => trivial
  | leaf n ty' dim' rows' rest ih =>
    simp only [S.names, List.mem_cons, not_or] at h
    exact ⟨by simpa [S.names] using fun e => h.1 e.symm, ih h.2⟩
  | sub n us rest _ ih =>
    simp only [S.names, List.mem_cons, not_or] at h
    exact ⟨by simpa [S.names] using fun e => h.1 e.symm, by simp [S.subs], ih h.2⟩

theorem apart_sub {u : S α} {m : String} {ms : S α} (h : m ∉ u.names) (hs : ∀ us ∈ u.subs, us.Apart ms) : u.Apart (.sub m ms .nil) := by
  induction u with
  | nil => trivial
  | leaf n ty' dim' rows' rest ih =>
    simp only [S.names, List.mem_cons, not_or] at h
    exact ⟨by simpa [S.names] using fun e => h.1 e.symm, ih h.2 hs⟩
  | sub n us rest _ ih =>
    simp only [S.names, List.mem_cons, not_or] at h
    refine ⟨by simpa [S.names] using fun e => h.1 e.symm, ?_, ih h.2 (fun s hs' => hs s (by simp [S.subs, hs']))⟩
    intro ts hts
    simp only [S.subs, List.mem_singleton] at hts
    rw [hts]
    exact hs us (by simp [S.subs])

theorem picked_blank {ids : List Nat} {u r : S α} (h : u.Picked ids r) : r.blank = u.blank := by
  induction u generalizing r with
  | nil => rw [show r = .nil from h]
  | leaf n ty dim rows rest ih =>
    obtain ⟨rows', rest', rfl, h1, -⟩ := h
    simp only [S.blank, ih h1]
  | sub n ms rest ih1 ih2 =>
    obtain ⟨ms', rest', rfl, h1, h2⟩ := h
    simp only [S.blank, ih1 h1, ih2 h2]

theorem mapM_pick {rows : List α} {ids : List Nat} (h : ∀ i ∈ ids, i < rows.length) :
    ∃ r, (ids.mapM fun i => if h : i < rows.length then Res.ok rows[i] else .abort) = .ok r ∧ r.map some = ids.map (rows[·]?) := by
  induction ids with
  | nil => exact ⟨[], rfl, rfl⟩
  | cons i ids ih =>
    obtain ⟨r, e, hr⟩ := ih (fun j hj => h j (by simp [hj]))
    have hi := h i (by simp)
    refine ⟨rows[i] :: r, ?_, ?_⟩
    · rw [List.mapM_cons, dif_pos hi, e]; rfl
    · simp [hr, hi]

theorem mapM_abort {rows : List α} {ids : List Nat} (h : ¬ ∀ i ∈ ids, i < rows.length) :
    (ids.mapM fun i => if h : i < rows.length then Res.ok rows[i] else .abort) = .abort := by
  induction ids with
  | nil => exact absurd (by simp) h
  | cons i ids ih =>
    rw [List.mapM_cons]
    by_cases hi : i < rows.length
    · rw [dif_pos hi, ih (fun h' => h (by simpa [hi] using h'))]; rfl
    · rw [dif_neg hi]; rfl

theorem pick_main (ids : List Nat) (u : S α) : u.Clean → ∀ p : S α, u.Apart p →
    (u.InRange ids → ∃ r, merge (some ids) u (p.app u.blank) = .ok (p.app r) ∧ u.Picked ids r) ∧
    (¬ u.InRange ids → merge (some ids) u (p.app u.blank) = .abort) := by
  induction u with
  | nil => exact fun _ p _ => ⟨fun _ => ⟨.nil, rfl, rfl⟩, fun h => absurd trivial h⟩
  | leaf m ty dim rows rest ih =>
    intro hc p hp
    have hp' : m ∉ p.names := hp.1
    have hb : m ∉ rest.blank.names := by rw [names_blank]; exact hc.1
    have key : merge (some ids) (.leaf m ty dim rows rest) (p.app (S.leaf m ty dim rows rest).blank) =
        content (some ids) dim rows >>= fun rows' => merge (some ids) rest ((p.app (.leaf m ty dim rows' .nil)).app rest.blank) := by
      conv_lhs => unfold merge
      rw [runLeaf_app hp']
      simp only [S.blank]
      unfold runLeaf
      rw [if_pos ⟨rfl, rfl⟩, if_pos rfl, runLeaf_notin hb]
      cases content (some ids) dim rows with
      | ok rows' =>
        show merge (some ids) rest _ = merge (some ids) rest _
        rw [app_assoc]
        rfl
      | abort => rfl
      | ub => rfl
      | diverge => rfl
    have hap : ∀ rows', rest.Apart (p.app (.leaf m ty dim rows' .nil)) := fun rows' => apart_app hp.2 (apart_leaf hc.1)
    rw [key]
    unfold content
    by_cases hd : dim = 1 ∨ dim = 2
    · simp only [if_pos hd]
      by_cases hr : ∀ i ∈ ids, i < rows.length
      · obtain ⟨rows', e, hr'⟩ := mapM_pick hr
        rw [e]
        obtain ⟨h1, h2⟩ := ih hc.2 _ (hap rows')
        refine ⟨fun hin => ?_, fun hin => h2 (fun h => hin ⟨fun _ => hr, h⟩)⟩
        obtain ⟨r, e1, e2⟩ := h1 hin.2
        refine ⟨.leaf m ty dim rows' r, ?_, rows', r, rfl, e2, by rw [if_pos hd]; exact hr'⟩
        rw [Res.ok_bind, e1, app_assoc]
        rfl
      · rw [mapM_abort hr]
        exact ⟨fun hin => absurd (hin.1 hd) hr, fun _ => rfl⟩
    · simp only [if_neg hd]
      obtain ⟨h1, h2⟩ := ih hc.2 _ (hap rows)
      refine ⟨fun hin => ?_, fun hin => h2 (fun h => hin ⟨fun h' => absurd h' hd, h⟩)⟩
      obtain ⟨r, e1, e2⟩ := h1 hin.2
      refine ⟨.leaf m ty dim rows r, ?_, rows, r, rfl, e2, by rw [if_neg hd]⟩
      rw [Res.ok_bind, e1, app_assoc]
      rfl
  | sub m us rest ih1 ih2 =>
    intro hc p hp
    obtain ⟨hm, hus, hsub, hrest⟩ := hc
    have hfix : ∀ s ∈ p.subs, merge (some ids) us s = .ok s := fun s hs => merge_apart _ us s (hp.2.1 s hs)
    have hb : m ∉ rest.blank.names := by rw [names_blank]; exact hm
    have hfixb : ∀ s ∈ rest.blank.subs, merge (some ids) us s = .ok s := by
      intro s hs
      rw [subs_blank] at hs
      obtain ⟨s0, h0, rfl⟩ := List.mem_map.1 hs
      apply merge_apart
      refine apart_congr us s0 _ ?_ (hsub s0 h0).1
      clear * -
      induction s0 with
      | nil => rfl
      | leaf n ty dim rows rest ih => simp only [S.blank]; rw [← ih]
      | sub n ms rest ih1 ih2 => simp only [S.blank]; rw [← ih1, ← ih2]
    have key : merge (some ids) (.sub m us rest) (p.app (S.sub m us rest).blank) =
        merge (some ids) us us.blank >>= fun ms' => merge (some ids) rest ((p.app (.sub m ms' .nil)).app rest.blank) := by
      conv_lhs => unfold merge
      rw [runSub_app hp.1 hfix]
      simp only [S.blank]
      conv_lhs => unfold runSub
      rw [runSub_same hb hfixb]
      cases merge (some ids) us us.blank with
      | ok ms' =>
        show merge (some ids) rest _ = merge (some ids) rest _
        rw [app_assoc]
        rfl
      | abort => rfl
      | ub => rfl
      | diverge => rfl
    have nilA : us.Apart (.nil : S α) := by
      clear * -
      induction us with
      | nil => trivial
      | leaf n ty dim rows rest ih => exact ⟨by simp [S.names], ih⟩
      | sub n ms rest ih1 ih2 => exact ⟨by simp [S.names], by simp [S.subs], ih2⟩
    obtain ⟨g1, g2⟩ := ih1 hus .nil nilA
    simp only [S.app] at g1 g2
    rw [key]
    by_cases hin : us.InRange ids
    · obtain ⟨ms', e, hms⟩ := g1 hin
      rw [e]
      have hap : rest.Apart (p.app (.sub m ms' .nil)) :=
        apart_app hp.2.2 (apart_sub hm (fun s hs => apart_congr s us ms' (picked_blank hms).symm (hsub s hs).2))
      obtain ⟨h1, h2⟩ := ih2 hrest _ hap
      refine ⟨fun hi => ?_, fun hi => h2 (fun h => hi ⟨hin, h⟩)⟩
      obtain ⟨r, e1, e2⟩ := h1 hi.2
      refine ⟨.sub m ms' r, ?_, ms', r, rfl, hms, e2⟩
      rw [Res.ok_bind, e1, app_assoc]
      rfl
    · rw [g2 hin]
      exact ⟨fun hi => absurd hi.1 hin, fun _ => rfl⟩

/-! ### C197 -/

/-- If the structures within a structure have no member in common, all the vectors of one or two dimensions are selected, and nothing else is changed. -/
theorem C197_pick_partial (t : S α) (ids : List Nat) (hc : t.Clean) :
    (t.InRange ids → ∃ r, pickElements t ids = .ok r ∧ t.Picked ids r) ∧ (¬ t.InRange ids → pickElements t ids = .abort) := by
  refine pick_main ids t hc .nil ?_
  clear * -
  induction t with
  | nil => trivial
  | leaf n ty dim rows rest ih => exact ⟨by simp [S.names], ih⟩
  | sub n ms rest ih1 ih2 => exact ⟨by simp [S.names], by simp [S.subs], ih2⟩

/-- the new value of a variable of the destination -/
def merged (u : S α) (x : String) (old : Option (Nat × Nat × List α)) : Option (Nat × Nat × List α) := (u.var x).or old

theorem runLeaf_flat {m : String} {ty dim : Nat} {rows : List α} {t : S α} (hf : t.Flat) (hn : t.names.Nodup) :
    ((∀ b, t.var m = some b → ty = b.1 ∧ dim = b.2.1) → ∃ r, runLeaf m ty dim (.ok rows) t = .ok r ∧ r.Flat ∧ r.names = t.names ∧
      (∀ x, x ≠ m → r.var x = t.var x) ∧ (m ∈ t.names → r.var m = some (ty, dim, rows))) ∧
    (¬ (∀ b, t.var m = some b → ty = b.1 ∧ dim = b.2.1) → runLeaf m ty dim (.ok rows) t = .abort) := by
  induction t with
  | nil => exact ⟨fun _ => ⟨.nil, rfl, trivial, rfl, fun _ _ => rfl, by simp [S.names]⟩, fun h => absurd (by simp [S.var]) h⟩
  | sub n ms rest _ ih => exact absurd hf (by simp [S.Flat])
  | leaf n ty' dim' rows' rest ih =>
    simp only [S.names, List.nodup_cons] at hn
    obtain ⟨h1, h2⟩ := ih hf hn.2
    by_cases hmn : m = n
    · subst hmn
      have hv : (S.leaf m ty' dim' rows' rest).var m = some (ty', dim', rows') := by simp [S.var]
      by_cases ht : ty = ty' ∧ dim = dim'
      · refine ⟨fun _ => ⟨.leaf m ty dim rows rest, ?_, hf, rfl, fun x hx => ?_, fun _ => by simp [S.var]⟩, fun h => absurd ?_ h⟩
        · unfold runLeaf
          rw [if_pos ht, if_pos rfl, runLeaf_notin hn.1, ← ht.1, ← ht.2]
          rfl
        · simp [S.var, Ne.symm hx]
        · rw [hv]; rintro b ⟨⟩; exact ht
      · refine ⟨fun h => absurd (h _ hv) ht, fun _ => ?_⟩
        unfold runLeaf
        rw [if_neg ht, Res.check_neg (by simp)]
        rfl
    · have hv : (S.leaf n ty' dim' rows' rest).var m = rest.var m := by simp [S.var, Ne.symm hmn]
      rw [hv]
      have step : runLeaf m ty dim (.ok rows) (.leaf n ty' dim' rows' rest) = runLeaf m ty dim (.ok rows) rest >>= fun r => .ok (.leaf n ty' dim' rows' r) := by
        conv_lhs => unfold runLeaf
        split
        · rfl
        · rw [Res.check_pos hmn]; rfl
      rw [step]
      refine ⟨fun h => ?_, fun h => by rw [h2 h]; rfl⟩
      obtain ⟨r, e, f1, f2, f3, f4⟩ := h1 h
      refine ⟨.leaf n ty' dim' rows' r, by rw [e]; rfl, f1, by simp only [S.names, f2], fun x hx => ?_, fun hm => ?_⟩
      · simp only [S.var, f3 x hx]
      · simp only [S.names, List.mem_cons, hmn, false_or] at hm
        simp only [S.var, if_neg (Ne.symm hmn), f4 hm]

/-- Structures of variables: each variable of the destination with the name of a variable of the source is replaced, the others are kept; the program stops exactly if two
variables with the same name have different types. -/
theorem C197_merge (u t : S α) (hu : u.Flat) (hun : u.names.Nodup) (ht : t.Flat) (htn : t.names.Nodup) :
    ((∀ x a b, u.var x = some a → t.var x = some b → a.1 = b.1 ∧ a.2.1 = b.2.1) → ∃ r, merge none u t = .ok r ∧ r.names = t.names ∧
      ∀ x ∈ t.names, r.var x = (u.var x).or (t.var x)) ∧
    (¬ (∀ x a b, u.var x = some a → t.var x = some b → a.1 = b.1 ∧ a.2.1 = b.2.1) → merge none u t = .abort) := by
  induction u generalizing t with
  | nil => exact ⟨fun _ => ⟨t, rfl, rfl, fun x _ => by simp [S.var]⟩, fun h => absurd (by simp [S.var]) h⟩
  | sub n ms rest _ ih => exact absurd hu (by simp [S.Flat])
  | leaf m ty dim rows rest ih =>
    simp only [S.names, List.nodup_cons] at hun
    obtain ⟨h1, h2⟩ := runLeaf_flat (m := m) (ty := ty) (dim := dim) (rows := rows) ht htn
    have hmrest : rest.var m = none := by
      have := hun.1
      clear * - this
      induction rest with
      | nil => rfl
      | leaf n ty dim rows rest ih =>
        simp only [S.names, List.mem_cons, not_or] at this
        simp only [S.var, if_neg (Ne.symm this.1), ih this.2]
      | sub n ms rest _ ih =>
        simp only [S.names, List.mem_cons, not_or] at this
        simp only [S.var, if_neg (Ne.symm this.1), ih this.2]
    have hvar : ∀ x, (S.leaf m ty dim rows rest).var x = if m = x then some (ty, dim, rows) else rest.var x := fun x => rfl
    by_cases hc : ∀ b, t.var m = some b → ty = b.1 ∧ dim = b.2.1
    · obtain ⟨r, e, f1, f2, f3, f4⟩ := h1 hc
      have hmerge : merge none (.leaf m ty dim rows rest) t = merge none rest r := by
        conv_lhs => unfold merge
        simp only [content, e]
        rfl
      rw [hmerge]
      obtain ⟨g1, g2⟩ := ih r hu hun.2 f1 (by rw [f2]; exact htn)
      have hiff : (∀ x a b, (S.leaf m ty dim rows rest).var x = some a → t.var x = some b → a.1 = b.1 ∧ a.2.1 = b.2.1) ↔
          (∀ x a b, rest.var x = some a → r.var x = some b → a.1 = b.1 ∧ a.2.1 = b.2.1) := by
        constructor
        · intro h x a b ha hb
          by_cases hx : x = m
          · rw [hx, hmrest] at ha; cases ha
          · refine h x a b (by rw [hvar, if_neg (Ne.symm hx)]; exact ha) (by rw [← f3 x hx]; exact hb)
        · intro h x a b ha hb
          by_cases hx : x = m
          · subst hx
            rw [hvar, if_pos rfl] at ha
            cases ha
            exact hc b hb
          · rw [hvar, if_neg (Ne.symm hx)] at ha
            exact h x a b ha (by rw [f3 x hx]; exact hb)
      rw [hiff]
      refine ⟨fun h => ?_, g2⟩
      obtain ⟨r', e', k1, k2⟩ := g1 h
      refine ⟨r', e', by rw [k1, f2], fun x hx => ?_⟩
      rw [k2 x (by rw [f2]; exact hx), hvar]
      by_cases hxm : m = x
      · subst hxm
        rw [if_pos rfl, hmrest, f4 hx]
        rfl
      · rw [if_neg hxm, f3 x (Ne.symm hxm)]
    · refine ⟨fun h => absurd (fun b hb => h m (ty, dim, rows) b (by rw [hvar, if_pos rfl]) hb) hc, fun _ => ?_⟩
      unfold merge
      simp only [content, h2 hc]
      rfl

/-- a structure with two structures -/
def exTwo : S Nat := .sub "a" (.leaf "x" 0 1 [1, 2] .nil) (.sub "b" (.leaf "x" 0 1 [3, 4] .nil) .nil)

/-- A structure is copied into all the structures of the destination: `a.x` has the values of `b.x`. -/
theorem C197_names_refuted : pickElements exTwo [1] = .ok (.sub "a" (.leaf "x" 0 1 [4] .nil) (.sub "b" (.leaf "x" 0 1 [4] .nil) .nil)) ∧
    merge none (S.sub "a" (.leaf "x" 0 1 [1] .nil) .nil) (.sub "b" (.leaf "x" 0 1 [7] .nil) .nil) = .ok (.sub "b" (.leaf "x" 0 1 [1] .nil) .nil) := by
  constructor <;> decide +kernel

/-- Two structures with members of the same name and different types cannot be selected. -/
theorem C197_types_refuted : pickElements (.sub "a" (.leaf "x" 0 1 [1, 2] .nil) (.sub "b" (.leaf "x" 5 1 [3, 4] .nil) .nil)) [1] = (.abort : Res (S Nat)) := by decide +kernel

/-- Vectors of three dimensions or more are not selected. -/
theorem C197_cube_refuted (x : String) (ty : Nat) (rows : List α) (ids : List Nat) (dim : Nat) (hd : 3 ≤ dim) :
    pickElements (.leaf x ty dim rows .nil) ids = .ok (.leaf x ty dim rows .nil) := by
  have h : ¬ (dim = 1 ∨ dim = 2) := by omega
  simp [pickElements, merge, S.blank, runLeaf, content, h]

/-- a structure that can be selected: the hypotheses of `C197_pick_partial` hold -/
def exClean : S Nat := .leaf "id" 0 1 [10, 11, 12] (.leaf "n" 1 0 [3] (.sub "a" (.leaf "x" 0 1 [1, 2, 3] .nil) (.sub "b" (.leaf "y" 0 2 [4, 5, 6] .nil) .nil)))

example : exClean.Clean ∧ exClean.InRange [2, 0] ∧ pickElements exClean [2, 0] =
    .ok (.leaf "id" 0 1 [12, 10] (.leaf "n" 1 0 [3] (.sub "a" (.leaf "x" 0 1 [3, 1] .nil) (.sub "b" (.leaf "y" 0 2 [6, 4] .nil) .nil)))) := by
  refine ⟨?_, ?_, by decide +kernel⟩
  · simp [exClean, S.Clean, S.names, S.subs, S.Apart]
  · simp [exClean, S.InRange]

example : merge none (S.leaf "a" 0 1 [1] (.leaf "b" 0 1 [2] .nil)) (.leaf "b" 0 1 [] (.leaf "c" 3 1 [9] .nil)) = .ok (.leaf "b" 0 1 [2] (.leaf "c" 3 1 [9] .nil)) := by decide +kernel

end Verif.Reflex
