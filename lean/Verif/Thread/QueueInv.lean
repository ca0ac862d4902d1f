import Verif.Thread.Queue
import Mathlib.Data.List.Forall2
import Mathlib.Data.List.Nodup
/-! Inductive invariant of the queue model (proof devices only). -/
namespace Verif.Thread.Queue
variable {T : Type}

/-- The nodes of `l` are allocated and linked in order, the last one pointing to `e`. -/
def Chain (h : Addr → Option (Node T)) : List Addr → Option Addr → Prop
  | [], _ => True
  | [a], e => ∃ n, h a = some n ∧ n.next = e
  | a :: b :: l, e => (∃ n, h a = some n ∧ n.next = some b) ∧ Chain h (b :: l) e

theorem Chain.alloc {h : Addr → Option (Node T)} {l : List Addr} {e : Option Addr}
    (hc : Chain h l e) {a : Addr} (ha : a ∈ l) : ∃ n, h a = some n := by
  induction l with
  | nil => simp at ha
  | cons b l ih =>
    cases l with
    | nil => simp at ha; subst ha; obtain ⟨n, h1, _⟩ := hc; exact ⟨n, h1⟩
    | cons c l =>
      obtain ⟨⟨n, h1, _⟩, h2⟩ := hc
      rcases List.mem_cons.1 ha with rfl | ha
      · exact ⟨n, h1⟩
      · exact ih h2 ha

theorem Chain.congr {h h' : Addr → Option (Node T)} {l : List Addr} {e : Option Addr}
    (hc : Chain h l e) (hh : ∀ a ∈ l, ∀ n, h a = some n → ∃ n', h' a = some n' ∧ n'.next = n.next) :
    Chain h' l e := by
  induction l with
  | nil => trivial
  | cons b l ih =>
    cases l with
    | nil =>
      obtain ⟨n, h1, h2⟩ := hc
      obtain ⟨n', h3, h4⟩ := hh b (by simp) n h1
      exact ⟨n', h3, by rw [h4, h2]⟩
    | cons c l =>
      obtain ⟨⟨n, h1, h2⟩, h3⟩ := hc
      obtain ⟨n', h4, h5⟩ := hh b (by simp) n h1
      exact ⟨⟨n', h4, by rw [h5, h2]⟩, ih h3 fun a ha => hh a (by simp [ha])⟩

theorem Chain.upd_notin {h : Addr → Option (Node T)} {l : List Addr} {e : Option Addr}
    (hc : Chain h l e) {a : Addr} (ha : a ∉ l) (n : Option (Node T)) : Chain (upd h a n) l e := by
  refine hc.congr fun b hb m hm => ⟨m, ?_, rfl⟩
  have : b ≠ a := by rintro rfl; exact ha hb
  simp [upd, this, hm]

theorem Chain.upd_data {h : Addr → Option (Node T)} {l : List Addr} {e : Option Addr}
    (hc : Chain h l e) {a : Addr} {n : Node T} (ha : h a = some n) (d : Option T) :
    Chain (upd h a (some { n with data := d })) l e := by
  refine hc.congr fun b _ m hm => ?_
  by_cases hb : b = a
  · subst hb; rw [ha] at hm; cases hm; exact ⟨_, if_pos rfl, rfl⟩
  · exact ⟨m, by simp [upd, hb, hm], rfl⟩

theorem Chain.set_last {h : Addr → Option (Node T)} {l : List Addr} {z : Addr} {e : Option Addr}
    (hc : Chain h (l ++ [z]) e) (hz : z ∉ l) {n : Node T} (hn : h z = some n) (e' : Option Addr) :
    Chain (upd h z (some { n with next := e' })) (l ++ [z]) e' := by
  induction l with
  | nil => exact ⟨{ n with next := e' }, by simp [upd], rfl⟩
  | cons a l ih =>
    have hza : a ≠ z := by rintro rfl; simp at hz
    have hzl : z ∉ l := by intro hm; exact hz (by simp [hm])
    cases hl : l with
    | nil =>
      subst hl
      obtain ⟨⟨m, h1, h2⟩, h3⟩ := hc
      exact ⟨⟨m, by simp [upd, hza, h1], h2⟩, ih h3 hzl⟩
    | cons b l' =>
      subst hl
      obtain ⟨⟨m, h1, h2⟩, h3⟩ := hc
      exact ⟨⟨m, by simp [upd, hza, h1], h2⟩, ih h3 hzl⟩

theorem Chain.next {h : Addr → Option (Node T)} {p : List Addr} {a b : Addr} {q : List Addr}
    {e : Option Addr} (hc : Chain h (p ++ a :: b :: q) e) : ∃ n, h a = some n ∧ n.next = some b := by
  induction p with
  | nil => exact hc.1
  | cons c p ih =>
    cases p with
    | nil => exact ih hc.2
    | cons d p => exact ih hc.2

theorem Chain.last {h : Addr → Option (Node T)} {p : List Addr} {a : Addr}
    {e : Option Addr} (hc : Chain h (p ++ [a]) e) : ∃ n, h a = some n ∧ n.next = e := by
  induction p with
  | nil => exact hc
  | cons c p ih =>
    cases p with
    | nil => exact ih hc.2
    | cons d p => exact ih hc.2

theorem Chain.tail {h : Addr → Option (Node T)} {a : Addr} {q : List Addr}
    {e : Option Addr} (hc : Chain h (a :: q) e) : Chain h q e := by
  cases q with
  | nil => trivial
  | cons b q => exact hc.2

theorem Chain.snoc {h : Addr → Option (Node T)} {l : List Addr} {a : Addr} {e : Option Addr}
    (hc : Chain h l (some a)) (ha : ∃ n, h a = some n ∧ n.next = e) : Chain h (l ++ [a]) e := by
  induction l with
  | nil => exact ha
  | cons b l ih =>
    cases l with
    | nil => exact ⟨hc, ha⟩
    | cons c l => exact ⟨hc.1, ih hc.2⟩

/-- payloads of the stored nodes -/
def Data (h : Addr → Option (Node T)) (live : List Addr) (vals : List T) : Prop :=
  List.Forall₂ (fun a v => ∃ n, h a = some n ∧ n.data = some v) live vals

theorem Data.congr {h h' : Addr → Option (Node T)} {l : List Addr} {vs : List T} (hd : Data h l vs)
    (hh : ∀ a ∈ l, ∀ n, h a = some n → ∃ n', h' a = some n' ∧ n'.data = n.data) : Data h' l vs := by
  induction hd with
  | nil => exact .nil
  | @cons a v l vs h1 _ ih =>
    obtain ⟨n, h2, h3⟩ := h1
    obtain ⟨n', h4, h5⟩ := hh a (by simp) n h2
    exact .cons ⟨n', h4, by rw [h5, h3]⟩ (ih fun b hb => hh b (by simp [hb]))

theorem Data.upd_notin {h : Addr → Option (Node T)} {l : List Addr} {vs : List T}
    (hd : Data h l vs) {a : Addr} (ha : a ∉ l) (n : Option (Node T)) : Data (upd h a n) l vs := by
  refine hd.congr fun b hb m hm => ⟨m, ?_, rfl⟩
  have : b ≠ a := by rintro rfl; exact ha hb
  simp [upd, this, hm]

theorem Data.upd_next {h : Addr → Option (Node T)} {l : List Addr} {vs : List T}
    (hd : Data h l vs) {a : Addr} {n : Node T} (ha : h a = some n) (e : Option Addr) :
    Data (upd h a (some { n with next := e })) l vs := by
  refine hd.congr fun b _ m hm => ?_
  by_cases hb : b = a
  · subst hb; rw [ha] at hm; cases hm; exact ⟨_, if_pos rfl, rfl⟩
  · exact ⟨m, by simp [upd, hb, hm], rfl⟩

/-- Consumer part of the invariant, over the heap, `dummy_`, the stored nodes and values. -/
def CInv (h : Addr → Option (Node T)) (dummy : Addr) (live : List Addr) (vals : List T) : CPc T → Prop
  | .idle => Data h live vals
  | .test => Data h live vals
  | .readNext => Data h live vals ∧ live ≠ []
  | .moveOut a => Data h live vals ∧ live.head? = some a
  | .readNext2 t => ∃ b l v vs, live = b :: l ∧ vals = v :: vs ∧ t = some v ∧ Data h l vs
  | .advance t a => ∃ l v vs, live = a :: l ∧ vals = v :: vs ∧ t = some v ∧ Data h l vs
  | .size tmp stop n snap => Data h live vals ∧ ∃ pre mid post,
      dummy :: live = pre ++ (tmp :: mid) ++ post ∧ (tmp :: mid).getLast? = some stop ∧
      n + mid.length = snap

/-- Producer part: `e` is what the last node points to. -/
def PInv (h : Addr → Option (Node T)) (last : Addr) (old nodes : List Addr) (e : Option Addr) :
    PPc T → Prop
  | .idle => e = none ∧ ∀ a, h a ≠ none → a ∈ nodes
  | .alloc _ => e = none ∧ ∀ a, h a ≠ none → a ∈ nodes
  | .link x a => e = none ∧ a ∉ nodes ∧ h a = some ⟨some x, none⟩ ∧ ∀ b, h b ≠ none → b ∈ nodes ∨ b = a
  | .readLast x => ∃ a, e = some a ∧ a ∉ nodes ∧ h a = some ⟨some x, none⟩ ∧
      ∀ b, h b ≠ none → b ∈ nodes ∨ b = a
  | .publish x a => e = some a ∧ a ∉ nodes ∧ h a = some ⟨some x, none⟩ ∧
      ∀ b, h b ≠ none → b ∈ nodes ∨ b = a
  | .loop => e = none ∧ ∀ a, h a ≠ none → a ∈ nodes
  | .unlink => e = none ∧ old ≠ [] ∧ ∀ a, h a ≠ none → a ∈ nodes
  | .free t => e = none ∧ t ∉ nodes ∧ h t ≠ none ∧ ∀ a, h a ≠ none → a ∈ nodes ∨ a = t
  | .size tmp stop n snap => e = none ∧ (∀ a, h a ≠ none → a ∈ nodes) ∧ stop = last ∧
      ∃ pre mid, nodes = pre ++ tmp :: mid ∧ n + mid.length = snap

structure Inv (s : State T) (old live : List Addr) (vals pops : List T) (e : Option Addr) : Prop where
  nodup : (old ++ s.dummy :: live).Nodup
  first : (old ++ s.dummy :: live).head? = some s.first
  last : (old ++ s.dummy :: live).getLast? = some s.last
  chain : Chain s.heap (old ++ s.dummy :: live) e
  prod : PInv s.heap s.last old (old ++ s.dummy :: live) e s.pp
  cons : CInv s.heap s.dummy live vals s.cp
  len : vals.length = live.length
  pushed : s.pushed = pops ++ vals
  popped : s.popped = pops.map some
  sizes : ∀ p ∈ s.sizes, p.1 = p.2

def Good (s : State T) : Prop := ∃ old live vals pops e, Inv s old live vals pops e

theorem good_init (a : Addr) : Good (init a : State T) := by
  refine ⟨[], [], [], [], none, ?_⟩
  refine ⟨by simp, by simp [init], by simp [init], ⟨⟨none, none⟩, by simp [init, upd], rfl⟩, ?_, .nil,
    rfl, rfl, rfl, by simp [init]⟩
  refine ⟨rfl, fun b hb => ?_⟩
  by_cases h : b = a
  · simp [init, h]
  · simp [init, upd, h] at hb

/-- heap changes that do not touch the stored nodes' payloads preserve the consumer part -/
theorem CInv.congr {h h' : Addr → Option (Node T)} {d : Addr} {live : List Addr} {vals : List T}
    {c : CPc T} (hc : CInv h d live vals c)
    (hh : ∀ a ∈ live, ∀ n, h a = some n → ∃ n', h' a = some n' ∧ n'.data = n.data) :
    CInv h' d live vals c := by
  cases c with
  | idle => exact Data.congr hc hh
  | test => exact Data.congr hc hh
  | readNext => exact ⟨Data.congr hc.1 hh, hc.2⟩
  | moveOut a => exact ⟨Data.congr hc.1 hh, hc.2⟩
  | readNext2 t =>
    obtain ⟨b, l, v, vs, h1, h2, h3, h4⟩ := hc
    exact ⟨b, l, v, vs, h1, h2, h3, Data.congr h4 fun a ha => hh a (by simp [h1, ha])⟩
  | advance t a =>
    obtain ⟨l, v, vs, h1, h2, h3, h4⟩ := hc
    exact ⟨l, v, vs, h1, h2, h3, Data.congr h4 fun a ha => hh a (by simp [h1, ha])⟩
  | size tmp stop n snap => exact ⟨Data.congr hc.1 hh, hc.2⟩

theorem CInv.upd_notin {h : Addr → Option (Node T)} {d : Addr} {live : List Addr} {vals : List T}
    {c : CPc T} (hc : CInv h d live vals c) {a : Addr} (ha : a ∉ live) (n : Option (Node T)) :
    CInv (upd h a n) d live vals c := by
  refine hc.congr fun b hb m hm => ⟨m, ?_, rfl⟩
  have : b ≠ a := by rintro rfl; exact ha hb
  simp [upd, this, hm]

theorem CInv.upd_next {h : Addr → Option (Node T)} {d : Addr} {live : List Addr} {vals : List T}
    {c : CPc T} (hc : CInv h d live vals c) {a : Addr} {n : Node T} (ha : h a = some n)
    (e : Option Addr) : CInv (upd h a (some { n with next := e })) d live vals c := by
  refine hc.congr fun b _ m hm => ?_
  by_cases hb : b = a
  · subst hb; rw [ha] at hm; cases hm; exact ⟨_, if_pos rfl, rfl⟩
  · exact ⟨m, by simp [upd, hb, hm], rfl⟩

/-- publishing a new node extends the stored nodes -/
theorem CInv.snoc {h : Addr → Option (Node T)} {d : Addr} {live : List Addr} {vals : List T}
    {c : CPc T} (hc : CInv h d live vals c) {a : Addr} {x : T}
    (ha : h a = some ⟨some x, none⟩) : CInv h d (live ++ [a]) (vals ++ [x]) c := by
  have app : ∀ {l vs}, Data h l vs → Data h (l ++ [a]) (vs ++ [x]) := fun hd =>
    List.rel_append hd (.cons ⟨_, ha, rfl⟩ .nil)
  cases c with
  | idle => exact app hc
  | test => exact app hc
  | readNext => exact ⟨app hc.1, by simp⟩
  | moveOut b => exact ⟨app hc.1, by rw [List.head?_append, hc.2]; rfl⟩
  | readNext2 t =>
    obtain ⟨b, l, v, vs, h1, h2, h3, h4⟩ := hc
    exact ⟨b, l ++ [a], v, vs ++ [x], by simp [h1], by simp [h2], h3, app h4⟩
  | advance t b =>
    obtain ⟨l, v, vs, h1, h2, h3, h4⟩ := hc
    exact ⟨l ++ [a], v, vs ++ [x], by simp [h1], by simp [h2], h3, app h4⟩
  | size tmp stop n snap =>
    obtain ⟨h0, pre, mid, post, h1, h2, h3⟩ := hc
    exact ⟨app h0, pre, mid, post ++ [a], by rw [← List.cons_append, h1]; simp, h2, h3⟩

theorem getLast?_append_cons' (l : List Addr) (a : Addr) (r : List Addr) :
    (l ++ a :: r).getLast? = (a :: r).getLast? := by
  rw [List.getLast?_append, List.getLast?_eq_some_getLast (List.cons_ne_nil a r)]; rfl

theorem mem_of_getLast? {l : List Addr} {a : Addr} (h : l.getLast? = some a) : ∃ p, l = p ++ [a] := by
  rcases List.eq_nil_or_concat l with rfl | ⟨p, b, rfl⟩
  · simp at h
  · simp at h; subst h; exact ⟨p, by simp⟩

theorem pstep_good {s : State T} (hg : Good s) (c : PChoice T) :
    pstep s c ≠ .fault ∧ ∀ t, pstep s c = .ok t → Good t := by
  obtain ⟨old, live, vals, pops, e, hi⟩ := hg
  obtain ⟨nodup, first, last, chain, prod, cons, len, pushed, popped, sizes⟩ := hi
  unfold pstep
  split
  · -- push call
    rename_i hpp
    refine ⟨by simp, fun t ht => ?_⟩
    simp only [R.ok.injEq] at ht; subst ht
    rw [hpp] at prod
    exact ⟨old, live, vals, pops, e, nodup, first, last, chain, prod, cons, len, pushed, popped, sizes⟩
  · -- size call
    rename_i hpp
    refine ⟨by simp, fun t ht => ?_⟩
    simp only [R.ok.injEq] at ht; subst ht
    rw [hpp] at prod
    refine ⟨old, live, vals, pops, e, nodup, first, last, chain, ?_, cons, len, pushed, popped, sizes⟩
    refine ⟨prod.1, prod.2, rfl, old, live, rfl, ?_⟩
    rw [pushed, popped]; simp [len]
  · -- alloc
    rename_i x a hpp
    split
    · exact ⟨by simp, fun t ht => by simp at ht⟩
    · rename_i hfree
      refine ⟨by simp, fun t ht => ?_⟩
      simp only [R.ok.injEq] at ht; subst ht
      rw [hpp] at prod
      have hnot : a ∉ old ++ s.dummy :: live := by
        intro hm
        obtain ⟨n, hn⟩ := chain.alloc hm
        rw [hfree] at hn; cases hn
      refine ⟨old, live, vals, pops, e, nodup, first, last, chain.upd_notin hnot _, ?_,
        cons.upd_notin (fun hm => hnot (by simp [hm])) _, len, pushed, popped, sizes⟩
      refine ⟨prod.1, hnot, by simp [upd], fun b hb => ?_⟩
      by_cases hba : b = a
      · exact .inr hba
      · exact .inl (prod.2 b (by simpa [upd, hba] using hb))
  · -- link
    rename_i x a hpp
    obtain ⟨p, hp⟩ := mem_of_getLast? last
    rw [hpp] at prod
    obtain ⟨rfl, hnot, hx, hex⟩ := prod
    have hc := chain
    rw [hp] at hc
    obtain ⟨n, hn, hnn⟩ := hc.last
    rw [hn]
    refine ⟨by simp, fun t ht => ?_⟩
    simp only [R.ok.injEq] at ht; subst ht
    have hlp : s.last ∉ p := by
      rw [hp, List.nodup_append] at nodup
      intro hm; exact nodup.2.2 _ hm _ (by simp) rfl
    have hla : s.last ≠ a := by
      rintro rfl; exact hnot (by rw [hp]; simp)
    refine ⟨old, live, vals, pops, some a, nodup, first, last, ?_, ?_, cons.upd_next hn _, len, pushed,
      popped, sizes⟩
    · show Chain _ (old ++ s.dummy :: live) _
      rw [hp]; exact hc.set_last hlp hn (some a)
    · refine ⟨a, rfl, hnot, ?_, fun b hb => ?_⟩
      · simp [upd, Ne.symm hla, hx]
      · by_cases hbl : b = s.last
        · left; show b ∈ old ++ s.dummy :: live; rw [hp, hbl]; simp
        · exact hex b (by simpa [upd, hbl] using hb)
  · -- readLast
    rename_i x hpp
    obtain ⟨p, hp⟩ := mem_of_getLast? last
    rw [hpp] at prod
    obtain ⟨a, rfl, hnot, hx, hex⟩ := prod
    have hc := chain
    rw [hp] at hc
    obtain ⟨n, hn, hnn⟩ := hc.last
    rw [hn]; simp only [hnn]
    refine ⟨by simp, fun t ht => ?_⟩
    simp only [R.ok.injEq] at ht; subst ht
    exact ⟨old, live, vals, pops, some a, nodup, first, last, chain, ⟨rfl, hnot, hx, hex⟩, cons, len,
      pushed, popped, sizes⟩
  · -- publish
    rename_i x a hpp
    rw [hpp] at prod
    obtain ⟨rfl, hnot, hx, hex⟩ := prod
    refine ⟨by simp, fun t ht => ?_⟩
    simp only [R.ok.injEq] at ht; subst ht
    have en : old ++ s.dummy :: (live ++ [a]) = (old ++ s.dummy :: live) ++ [a] := by simp
    refine ⟨old, live ++ [a], vals ++ [x], pops, none, ?_, ?_, ?_, ?_, ?_, cons.snoc hx, by simp [len],
      by simp [pushed], popped, sizes⟩
    · show (old ++ s.dummy :: (live ++ [a])).Nodup
      rw [en]
      refine List.nodup_append.2 ⟨nodup, by simp, ?_⟩
      rintro b hb c hc rfl
      simp at hc; subst hc; exact hnot hb
    · show (old ++ s.dummy :: (live ++ [a])).head? = _
      rw [en, List.head?_append, first]; rfl
    · show (old ++ s.dummy :: (live ++ [a])).getLast? = _
      rw [en, getLast?_append_cons']; rfl
    · show Chain _ (old ++ s.dummy :: (live ++ [a])) _
      rw [en]; exact chain.snoc ⟨_, hx, rfl⟩
    · refine ⟨rfl, fun b hb => ?_⟩
      show b ∈ old ++ s.dummy :: (live ++ [a])
      rw [en]
      rcases hex b hb with h | h
      · exact List.mem_append_left _ h
      · simp [h]
  · -- loop
    rename_i hpp
    rw [hpp] at prod
    refine ⟨by simp, fun t ht => ?_⟩
    simp only [R.ok.injEq] at ht; subst ht
    refine ⟨old, live, vals, pops, e, nodup, first, last, chain, ?_, cons, len, pushed, popped, sizes⟩
    simp only
    split
    · exact prod
    · rename_i hne
      refine ⟨prod.1, ?_, prod.2⟩
      rintro rfl
      simp at first; exact hne first.symm
  · -- unlink
    rename_i hpp
    rw [hpp] at prod
    obtain ⟨rfl, hold, hex⟩ := prod
    obtain ⟨f, old', rfl⟩ : ∃ f o, old = f :: o := by
      cases old with
      | nil => simp at hold
      | cons f o => exact ⟨f, o, rfl⟩
    simp only [List.cons_append, List.head?_cons, Option.some.injEq] at first
    subst first
    obtain ⟨g, q, hg⟩ : ∃ g q, old' ++ s.dummy :: live = g :: q := by
      cases old' with
      | nil => exact ⟨_, _, rfl⟩
      | cons g o => exact ⟨_, _, rfl⟩
    have hc := chain
    rw [List.cons_append, hg] at hc
    obtain ⟨⟨n, hn, hnn⟩, hc2⟩ := hc
    rw [hn]; simp only [hnn]
    refine ⟨by simp, fun t ht => ?_⟩
    simp only [R.ok.injEq] at ht; subst ht
    rw [List.cons_append, List.nodup_cons] at nodup
    refine ⟨old', live, vals, pops, none, nodup.2, ?_, ?_, ?_, ?_, cons, len, pushed, popped, sizes⟩
    · show (old' ++ s.dummy :: live).head? = _
      rw [hg]; rfl
    · show (old' ++ s.dummy :: live).getLast? = _
      rw [List.cons_append] at last
      rw [getLast?_append_cons']
      rw [← List.cons_append, getLast?_append_cons'] at last
      exact last
    · show Chain _ (old' ++ s.dummy :: live) _
      rw [hg]; exact hc2
    · refine ⟨rfl, nodup.1, by simp [hn], fun b hb => ?_⟩
      have := hex b hb
      rw [List.cons_append, List.mem_cons] at this
      exact this.symm
  · -- free
    rename_i temp hpp
    rw [hpp] at prod
    obtain ⟨rfl, hnot, hal, hex⟩ := prod
    split
    · rename_i h; exact absurd h hal
    · refine ⟨by simp, fun t ht => ?_⟩
      simp only [R.ok.injEq] at ht; subst ht
      refine ⟨old, live, vals, pops, none, nodup, first, last, chain.upd_notin hnot _, ?_,
        cons.upd_notin (fun hm => hnot (by simp [hm])) _, len, pushed, popped, sizes⟩
      refine ⟨rfl, fun b hb => ?_⟩
      by_cases hbt : b = temp
      · simp [upd, hbt] at hb
      · rcases hex b (by simpa [upd, hbt] using hb) with h | h
        · exact h
        · exact absurd h hbt
  · -- size
    rename_i tmp stop n snap hpp
    rw [hpp] at prod
    obtain ⟨rfl, hex, rfl, pre, mid, hnodes, hn⟩ := prod
    split
    · rename_i heq
      refine ⟨by simp, fun t ht => ?_⟩
      simp only [R.ok.injEq] at ht; subst ht
      refine ⟨old, live, vals, pops, none, nodup, first, last, chain, ⟨rfl, hex⟩, cons, len, pushed,
        popped, ?_⟩
      intro q hq
      rcases List.mem_append.1 hq with hq | hq
      · exact sizes q hq
      · simp at hq; subst hq
        suffices mid = [] by subst this; simpa using hn
        rw [hnodes, getLast?_append_cons'] at last
        rw [hnodes] at nodup
        rcases List.eq_nil_or_concat mid with h | ⟨m, z, rfl⟩
        · exact h
        · exfalso
          rw [List.concat_eq_append, ← List.cons_append, List.getLast?_append] at last
          simp at last
          have := (List.nodup_append.1 nodup).2.1
          rw [List.nodup_cons] at this
          apply this.1
          rw [heq, ← last]; simp
    · rename_i hne
      cases mid with
      | nil =>
        exfalso
        rw [hnodes] at last
        simp at last; exact hne last
      | cons b mid =>
        have hc := chain
        rw [hnodes] at hc
        obtain ⟨nd, h1, h2⟩ := hc.next
        rw [h1]; simp only [h2]
        refine ⟨by simp, fun t ht => ?_⟩
        simp only [R.ok.injEq] at ht; subst ht
        refine ⟨old, live, vals, pops, none, nodup, first, last, chain, ⟨rfl, hex, rfl, pre ++ [tmp], mid,
          by rw [hnodes]; simp, ?_⟩, cons, len, pushed, popped, sizes⟩
        simp at hn; omega
  · exact ⟨by simp, fun t ht => by simp at ht⟩

/-- moving `dummy_` forward keeps the producer part -/
theorem PInv.old_mono {h : Addr → Option (Node T)} {last : Addr} {old old' nodes : List Addr}
    {e : Option Addr} {p : PPc T} (hp : PInv h last old nodes e p) (hne : old ≠ [] → old' ≠ []) :
    PInv h last old' nodes e p := by
  cases p <;> try exact hp
  exact ⟨hp.1, hne hp.2.1, hp.2.2⟩

theorem cstep_good {s : State T} (hg : Good s) (c : CChoice) :
    cstep s c ≠ .fault ∧ ∀ t, cstep s c = .ok t → Good t := by
  obtain ⟨old, live, vals, pops, e, hi⟩ := hg
  obtain ⟨nodup, first, last, chain, prod, cons, len, pushed, popped, sizes⟩ := hi
  unfold cstep
  split
  · rename_i hcp
    refine ⟨by simp, fun t ht => ?_⟩
    simp only [R.ok.injEq] at ht; subst ht
    rw [hcp] at cons
    exact ⟨old, live, vals, pops, e, nodup, first, last, chain, prod, cons, len, pushed, popped, sizes⟩
  · rename_i hcp
    refine ⟨by simp, fun t ht => ?_⟩
    simp only [R.ok.injEq] at ht; subst ht
    rw [hcp] at cons
    refine ⟨old, live, vals, pops, e, nodup, first, last, chain, prod, ?_, len, pushed, popped, sizes⟩
    refine ⟨cons, [], live, [], by simp, ?_, ?_⟩
    · rw [getLast?_append_cons'] at last; exact last
    · rw [pushed, popped]; simp [len]
  · -- test
    rename_i hcp
    refine ⟨by simp, fun t ht => ?_⟩
    simp only [R.ok.injEq] at ht; subst ht
    rw [hcp] at cons
    refine ⟨old, live, vals, pops, e, nodup, first, last, chain, prod, ?_, len, pushed, popped, sizes⟩
    simp only
    split
    · exact cons
    · rename_i hne
      refine ⟨cons, ?_⟩
      rintro rfl
      rw [getLast?_append_cons'] at last
      simp at last; exact hne last
  · -- readNext
    rename_i hcp
    rw [hcp] at cons
    obtain ⟨hd, hne⟩ := cons
    cases live with
    | nil => simp at hne
    | cons b l =>
      obtain ⟨n, h1, h2⟩ := chain.next
      rw [h1]; simp only [h2]
      refine ⟨by simp, fun t ht => ?_⟩
      simp only [R.ok.injEq] at ht; subst ht
      exact ⟨old, b :: l, vals, pops, e, nodup, first, last, chain, prod, ⟨hd, rfl⟩, len, pushed,
        popped, sizes⟩
  · -- moveOut
    rename_i a hcp
    rw [hcp] at cons
    obtain ⟨hd, hhead⟩ := cons
    cases live with
    | nil => simp at hhead
    | cons b l =>
      simp only [List.head?_cons, Option.some.injEq] at hhead
      subst hhead
      cases hd with
      | @cons _ v _ vs h1 h2 =>
        obtain ⟨n, hn, hdat⟩ := h1
        rw [hn]
        refine ⟨by simp, fun t ht => ?_⟩
        simp only [R.ok.injEq] at ht; subst ht
        have hbl : b ∉ l := by
          have := (List.nodup_append.1 nodup).2.1
          rw [List.nodup_cons, List.nodup_cons] at this
          exact this.2.1
        refine ⟨old, b :: l, v :: vs, pops, e, nodup, first, last, chain.upd_data hn _, ?_,
          ⟨b, l, v, vs, rfl, rfl, hdat, Data.upd_notin h2 hbl _⟩, len, pushed, popped, sizes⟩
        -- producer part: the freed/pending addresses are not `b`
        have hbn : b ∈ old ++ s.dummy :: b :: l := by simp
        have dom : ∀ c, (upd s.heap b (some { n with data := none }) c ≠ none ↔ s.heap c ≠ none) := by
          intro c
          by_cases hc : c = b
          · subst hc; simp [upd, hn]
          · simp [upd, hc]
        show PInv _ _ _ (old ++ s.dummy :: b :: l) _ s.pp
        cases hpp : s.pp with
        | idle => rw [hpp] at prod; exact ⟨prod.1, fun c hc => prod.2 c ((dom c).1 hc)⟩
        | alloc x => rw [hpp] at prod; exact ⟨prod.1, fun c hc => prod.2 c ((dom c).1 hc)⟩
        | loop => rw [hpp] at prod; exact ⟨prod.1, fun c hc => prod.2 c ((dom c).1 hc)⟩
        | unlink => rw [hpp] at prod; exact ⟨prod.1, prod.2.1, fun c hc => prod.2.2 c ((dom c).1 hc)⟩
        | link x a =>
          rw [hpp] at prod
          obtain ⟨p1, p2, p3, p4⟩ := prod
          have : a ≠ b := by rintro rfl; exact p2 hbn
          exact ⟨p1, p2, by simp [upd, this, p3], fun c hc => p4 c ((dom c).1 hc)⟩
        | readLast x =>
          rw [hpp] at prod
          obtain ⟨a, p1, p2, p3, p4⟩ := prod
          have : a ≠ b := by rintro rfl; exact p2 hbn
          exact ⟨a, p1, p2, by simp [upd, this, p3], fun c hc => p4 c ((dom c).1 hc)⟩
        | publish x a =>
          rw [hpp] at prod
          obtain ⟨p1, p2, p3, p4⟩ := prod
          have : a ≠ b := by rintro rfl; exact p2 hbn
          exact ⟨p1, p2, by simp [upd, this, p3], fun c hc => p4 c ((dom c).1 hc)⟩
        | free t =>
          rw [hpp] at prod
          obtain ⟨p1, p2, p3, p4⟩ := prod
          exact ⟨p1, p2, (dom t).2 p3, fun c hc => p4 c ((dom c).1 hc)⟩
        | size tmp stop k snap =>
          rw [hpp] at prod
          exact ⟨prod.1, fun c hc => prod.2.1 c ((dom c).1 hc), prod.2.2⟩
  · -- readNext2
    rename_i t hcp
    rw [hcp] at cons
    obtain ⟨b, l, v, vs, rfl, rfl, rfl, hd⟩ := cons
    obtain ⟨n, h1, h2⟩ := chain.next
    rw [h1]; simp only [h2]
    refine ⟨by simp, fun t ht => ?_⟩
    simp only [R.ok.injEq] at ht; subst ht
    exact ⟨old, b :: l, v :: vs, pops, e, nodup, first, last, chain, prod, ⟨l, v, vs, rfl, rfl, rfl, hd⟩,
      len, pushed, popped, sizes⟩
  · -- advance
    rename_i t a hcp
    rw [hcp] at cons
    obtain ⟨l, v, vs, rfl, rfl, rfl, hd⟩ := cons
    refine ⟨by simp, fun t ht => ?_⟩
    simp only [R.ok.injEq] at ht; subst ht
    have en : old ++ s.dummy :: a :: l = (old ++ [s.dummy]) ++ a :: l := by simp
    rw [en] at nodup first last chain prod
    exact ⟨old ++ [s.dummy], l, vs, pops ++ [v], e, nodup, first, last, chain,
      prod.old_mono (by simp), hd, by simpa using len, by simp [pushed], by simp [popped], sizes⟩
  · -- size
    rename_i tmp stop n snap hcp
    rw [hcp] at cons
    obtain ⟨hd, pre, mid, post, hnodes, hlast, hn⟩ := cons
    split
    · rename_i heq
      refine ⟨by simp, fun t ht => ?_⟩
      simp only [R.ok.injEq] at ht; subst ht
      refine ⟨old, live, vals, pops, e, nodup, first, last, chain, prod, hd, len, pushed, popped, ?_⟩
      intro q hq
      rcases List.mem_append.1 hq with hq | hq
      · exact sizes q hq
      · simp at hq; subst hq
        suffices mid = [] by subst this; simpa using hn
        rcases List.eq_nil_or_concat mid with h | ⟨m, z, rfl⟩
        · exact h
        · exfalso
          rw [List.concat_eq_append, ← List.cons_append, List.getLast?_append] at hlast
          simp at hlast
          have hnd := (List.nodup_append.1 nodup).2.1
          rw [hnodes] at hnd
          have hnd2 := (List.nodup_append.1 (List.nodup_append.1 hnd).1).2.1
          rw [List.nodup_cons] at hnd2
          apply hnd2.1
          rw [heq, ← hlast]; simp
    · rename_i hne
      cases mid with
      | nil => exfalso; simp at hlast; exact hne hlast
      | cons b mid =>
        have hc := chain
        have en : old ++ s.dummy :: live = (old ++ pre) ++ tmp :: b :: (mid ++ post) := by
          rw [hnodes]; simp
        rw [en] at hc
        obtain ⟨nd, h1, h2⟩ := hc.next
        rw [h1]; simp only [h2]
        refine ⟨by simp, fun t ht => ?_⟩
        simp only [R.ok.injEq] at ht; subst ht
        refine ⟨old, live, vals, pops, e, nodup, first, last, chain, prod, ⟨hd, pre ++ [tmp], mid, post,
          by rw [hnodes]; simp, ?_, ?_⟩, len, pushed, popped, sizes⟩
        · rw [← hlast]; simp
        · simp at hn; omega
  · exact ⟨by simp, fun t ht => by simp at ht⟩

theorem freeUntil_spec (d : Addr) (rest : List Addr) (e : Option Addr) (old : List Addr)
    (h : Addr → Option (Node T)) (f : Addr) (hnd : (old ++ d :: rest).Nodup)
    (hf : (old ++ d :: rest).head? = some f) (hc : Chain h (old ++ d :: rest) e)
    (hex : ∀ a, h a ≠ none → a ∈ old ++ d :: rest) :
    ∃ h', FreeUntil d h f h' ∧ ∀ h'', FreeUntil d h f h'' →
      Chain h'' (d :: rest) e ∧ ∀ a, h'' a ≠ none → a ∈ d :: rest := by
  induction old generalizing h f with
  | nil =>
    simp at hf; subst hf
    refine ⟨h, .done h, fun h'' hh => ?_⟩
    cases hh with
    | done => exact ⟨hc, hex⟩
    | step _ _ _ n b hne => exact absurd rfl hne
  | cons a old ih =>
    simp at hf; subst hf
    have hnd' := hnd
    rw [List.cons_append, List.nodup_cons] at hnd'
    obtain ⟨g, q, hg⟩ : ∃ g q, old ++ d :: rest = g :: q := by
      cases old with
      | nil => exact ⟨_, _, rfl⟩
      | cons g o => exact ⟨_, _, rfl⟩
    have hc' := hc
    rw [List.cons_append, hg] at hc'
    obtain ⟨⟨n, hn, hnn⟩, hc2⟩ := hc'
    rw [← hg] at hc2
    have had : a ≠ d := by rintro rfl; exact hnd'.1 (by simp)
    obtain ⟨h', f1, f2⟩ := ih (upd h a none) g hnd'.2 (by rw [hg]; rfl)
      (hc2.upd_notin hnd'.1 _) (by
        intro b hb
        by_cases hba : b = a
        · simp [upd, hba] at hb
        · have := hex b (by simpa [upd, hba] using hb)
          rw [List.cons_append, List.mem_cons] at this
          exact this.resolve_left hba)
    refine ⟨h', .step h h' a n g had hn hnn f1, fun h'' hh => ?_⟩
    cases hh with
    | done => exact absurd rfl had
    | step _ _ _ n' b' _ hn' hnn' hr =>
      rw [hn] at hn'; cases hn'
      rw [hnn] at hnn'; cases hnn'
      exact f2 h'' hr

theorem freeToLast_spec (l : List Addr) (h : Addr → Option (Node T)) (f : Addr)
    (hnd : (f :: l).Nodup) (hc : Chain h (f :: l) none) (hex : ∀ a, h a ≠ none → a ∈ f :: l) :
    ∃ h' z, FreeToLast h f h' z ∧ ∀ h'' z', FreeToLast h f h'' z' →
      Chain h'' [z'] none ∧ ∀ a, h'' a ≠ none → a = z' := by
  induction l generalizing h f with
  | nil =>
    obtain ⟨n, hn, hnn⟩ := hc
    refine ⟨h, f, .done h f n hn hnn, fun h'' z' hh => ?_⟩
    cases hh with
    | done => exact ⟨⟨n, hn, hnn⟩, fun a ha => by simpa using hex a ha⟩
    | step _ _ _ n' b _ hn' hnn' => rw [hn] at hn'; cases hn'; rw [hnn] at hnn'; cases hnn'
  | cons b l ih =>
    obtain ⟨⟨n, hn, hnn⟩, hc2⟩ := hc
    rw [List.nodup_cons] at hnd
    obtain ⟨h', z, f1, f2⟩ := ih (upd h f none) b hnd.2 (hc2.upd_notin hnd.1 _) (by
        intro c hcn
        by_cases hcf : c = f
        · simp [upd, hcf] at hcn
        · exact (List.mem_cons.1 (hex c (by simpa [upd, hcf] using hcn))).resolve_left hcf)
    refine ⟨h', z, .step h h' f n b z hn hnn f1, fun h'' z' hh => ?_⟩
    cases hh with
    | done _ _ n' hn' hnn' => rw [hn] at hn'; cases hn'; rw [hnn] at hnn'; cases hnn'
    | step _ _ _ n' b' _ hn' hnn' hr =>
      rw [hn] at hn'; cases hn'
      rw [hnn] at hnn'; cases hnn'
      exact f2 h'' z' hr

theorem destroy_spec (l : List Addr) (h : Addr → Option (Node T)) (f : Addr)
    (hnd : (f :: l).Nodup) (hc : Chain h (f :: l) none) (hex : ∀ a, h a ≠ none → a ∈ f :: l) :
    ∃ h', Destroy h (some f) h' ∧ ∀ a, h' a = none := by
  induction l generalizing h f with
  | nil =>
    obtain ⟨n, hn, hnn⟩ := hc
    refine ⟨upd h f none, .step h _ f n hn (by rw [hnn]; exact .done _), fun a => ?_⟩
    by_cases ha : a = f
    · simp [upd, ha]
    · simp only [upd, ha, if_false]
      by_contra hcon
      exact ha (by simpa using hex a hcon)
  | cons b l ih =>
    obtain ⟨⟨n, hn, hnn⟩, hc2⟩ := hc
    rw [List.nodup_cons] at hnd
    obtain ⟨h', f1, f2⟩ := ih (upd h f none) b hnd.2 (hc2.upd_notin hnd.1 _) (by
        intro c hcn
        by_cases hcf : c = f
        · simp [upd, hcf] at hcn
        · exact (List.mem_cons.1 (hex c (by simpa [upd, hcf] using hcn))).resolve_left hcf)
    exact ⟨h', .step h h' f n hn (by rw [hnn]; exact f1), f2⟩

theorem clear_good {s t : State T} (hg : Good s) (h : Clear s t) : Good t := by
  obtain ⟨old, live, vals, pops, e, hi⟩ := hg
  cases h with
  | mk h1 h2 z hp hcn f1 f2 =>
    have prod := hi.prod
    rw [hp] at prod
    obtain ⟨rfl, hex⟩ := prod
    obtain ⟨_, _, g⟩ := freeUntil_spec s.dummy live none old s.heap s.first hi.nodup hi.first hi.chain hex
    obtain ⟨c1, c2⟩ := g h1 f1
    have hnd := (List.nodup_append.1 hi.nodup).2.1
    obtain ⟨_, _, _, g2⟩ := freeToLast_spec live h1 s.dummy hnd c1 c2
    obtain ⟨d1, d2⟩ := g2 h2 z f2
    exact ⟨[], [], [], [], none, by simp, by simp, by simp, d1, ⟨rfl, fun a ha => by simp [d2 a ha]⟩, .nil,
      rfl, rfl, rfl, hi.sizes⟩

theorem reach_good {s : State T} (h : Reach T s) : Good s := by
  induction h with
  | init a => exact good_init a
  | prod c _ hs ih => exact (pstep_good ih c).2 _ hs
  | cons c _ hs ih => exact (cstep_good ih c).2 _ hs
  | clear _ hs ih => exact clear_good ih hs

end Verif.Thread.Queue
