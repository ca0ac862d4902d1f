import Verif.Tools.PixfitAddProps
/-!
# Limits on the temperature of the dust (C189)
-/
namespace Verif.Pixfit
open Verif Verif.Str

variable {V : Type}

/-! ### Specification -/

/-- the limits of one source, `true` for the lower one -/
inductive Bounds (rdV : Str → Option V) : List Str → List (Bool × V) → Prop
  | nil : Bounds rdV [] []
  | lo {a : Str} {v : V} {args bs} : '=' ∉ a → rdV a = some v → Bounds rdV args bs → Bounds rdV (("min=".toList ++ a) :: args) ((true, v) :: bs)
  | hi {a : Str} {v : V} {args bs} : '=' ∉ a → rdV a = some v → Bounds rdV args bs → Bounds rdV (("max=".toList ++ a) :: args) ((false, v) :: bs)

/-- the sources, each with its limits -/
inductive Blocks (rdId : Str → Option Nat) (rdV : Str → Option V) : List Str → List (Nat × List (Bool × V)) → Prop
  | nil : Blocks rdId rdV [] []
  | cons {a : Str} {i : Nat} {l r : List Str} {bs blocks} : '=' ∉ a → rdId a = some i → Bounds rdV l bs → Blocks rdId rdV r blocks →
      Blocks rdId rdV (a :: (l ++ r)) ((i, bs) :: blocks)

/-- the last value given for a limit; `nan` without one -/
def lastBound (nan : V) (k : Bool) (bs : List (Bool × V)) : V := (bs.filter (·.1 == k)).foldl (fun _ b => b.2) nan

/-- a block that gives at least one limit -/
def Gives (isFin : V → Bool) (nan : V) (bs : List (Bool × V)) : Prop := isFin (lastBound nan true bs) = true ∨ isFin (lastBound nan false bs) = true

/-- `bs` is the last block of `id` that gives a limit -/
def LastBlock (isFin : V → Bool) (nan : V) (blocks : List (Nat × List (Bool × V))) (id : Nat) (bs : List (Bool × V)) : Prop :=
  ∃ pre post, blocks = pre ++ (id, bs) :: post ∧ Gives isFin nan bs ∧ ∀ b ∈ post, b.1 = id → ¬ Gives isFin nan b.2

/-- the limits of a source -/
def HasLimits (t : Limits V) (id : Nat) (x : V × V) : Prop := ∃ p, position t.ids id = some p ∧ t.tmin[p]? = some x.1 ∧ t.tmax[p]? = some x.2

/-- the limits after one is given -/
theorem limits_set {t : Limits V} {i p : Nat} (hp : position t.ids i = some p) (h1 : t.tmin.length = t.ids.length) (h2 : t.tmax.length = t.ids.length) (a b : V) (id : Nat) (x : V × V) :
    HasLimits { t with tmin := t.tmin.set p a, tmax := t.tmax.set p b } id x ↔ if i = id then x = (a, b) else HasLimits t id x := by
  have hpl := position_some hp
  unfold HasLimits
  dsimp only
  by_cases h : i = id
  · subst h
    rw [if_pos rfl]
    constructor
    · rintro ⟨q, e1, e2, e3⟩
      rw [hp] at e1
      obtain rfl := Option.some.inj e1
      rw [List.getElem?_set_self (by omega)] at e2 e3
      ext
      · exact (Option.some.inj e2).symm
      · exact (Option.some.inj e3).symm
    · rintro rfl
      exact ⟨p, hp, List.getElem?_set_self (by omega), List.getElem?_set_self (by omega)⟩
  · rw [if_neg h]
    have hne : ∀ q, position t.ids id = some q → p ≠ q := by
      rintro q hq rfl
      have := (position_some hq).1
      rw [hpl.1] at this
      exact h (Option.some.inj this)
    constructor
    · rintro ⟨q, e1, e2, e3⟩
      rw [List.getElem?_set_ne (hne q e1)] at e2 e3
      exact ⟨q, e1, e2, e3⟩
    · rintro ⟨q, e1, e2, e3⟩
      exact ⟨q, e1, by rw [List.getElem?_set_ne (hne q e1)]; exact e2, by rw [List.getElem?_set_ne (hne q e1)]; exact e3⟩

/-- the limits of one source are read -/
theorem limLoop_bounds (rdId : Str → Option Nat) (rdV : Str → Option V) (isFin : V → Bool) (nan : V) {l : List Str} {bs : List (Bool × V)} (hb : Bounds rdV l bs)
    (s : LimState V) (r : List Str) :
    limLoop rdId rdV isFin nan s (l ++ r) =
      limLoop rdId rdV isFin nan { s with mi := (bs.filter (·.1 == true)).foldl (fun _ b => b.2) s.mi, ma := (bs.filter (·.1 == false)).foldl (fun _ b => b.2) s.ma } r := by
  induction hb generalizing s with
  | nil => rfl
  | @lo a v args bs ha hv hb ih =>
    rw [List.cons_append]
    conv_lhs => unfold limLoop
    have : limArg rdId rdV isFin nan s ("min=".toList ++ a) = .ok (some { s with mi := v }) := by
      unfold limArg
      rw [show split ("min=".toList ++ a) ['='] = .ok ["min".toList, a] from split_two (a := "min".toList) (by decide) ha, Res.ok_bind]
      dsimp only
      rw [if_pos rfl, hv]
      rfl
    rw [this, Res.ok_bind]
    dsimp only
    rw [ih]
    simp
  | @hi a v args bs ha hv hb ih =>
    rw [List.cons_append]
    conv_lhs => unfold limLoop
    have : limArg rdId rdV isFin nan s ("max=".toList ++ a) = .ok (some { s with ma := v }) := by
      unfold limArg
      rw [show split ("max=".toList ++ a) ['='] = .ok ["max".toList, a] from split_two (a := "max".toList) (by decide) ha, Res.ok_bind]
      dsimp only
      rw [if_neg (by decide), if_pos rfl, hv]
      rfl
    rw [this, Res.ok_bind]
    dsimp only
    rw [ih]
    simp

/-- `s` holds the limits read for the source `i`; `add_cst` writes them -/
theorem addCst_spec (isFin : V → Bool) (nan : V) (hnan : isFin nan = false) (t : Limits V) (h1 : t.tmin.length = t.ids.length) (h2 : t.tmax.length = t.ids.length) (i : Nat) (hi : i ∈ t.ids)
    (bs : List (Bool × V)) (s : LimState V) (hs : s = ⟨t, some i, lastBound nan true bs, lastBound nan false bs⟩) :
    ∃ s', addCst isFin nan s = some s' ∧ s'.tab.ids = t.ids ∧ s'.tab.tmin.length = t.ids.length ∧ s'.tab.tmax.length = t.ids.length ∧
      (Gives isFin nan bs → s'.mi = nan ∧ s'.ma = nan ∧ ∀ id x, HasLimits s'.tab id x ↔ if i = id then x = (lastBound nan true bs, lastBound nan false bs) else HasLimits t id x) ∧
      (¬ Gives isFin nan bs → s' = s) := by
  subst hs
  obtain ⟨p, hp⟩ := position_mem hi
  unfold addCst
  dsimp only
  by_cases hg : Gives isFin nan bs
  · rw [if_pos (by rw [Bool.or_eq_true]; exact hg), hp]
    refine ⟨_, rfl, rfl, by simp [h1], by simp [h2], fun _ => ⟨rfl, rfl, fun id x => limits_set hp h1 h2 _ _ id x⟩, fun h => absurd hg h⟩
  · rw [if_neg (by rw [Bool.or_eq_true]; exact hg)]
    exact ⟨_, rfl, rfl, h1, h2, fun h => absurd h hg, fun _ => rfl⟩

/-- the loop from the end of the limits of a source; the fields read are kept when they are not finite -/
theorem limLoop_spec (rdId : Str → Option Nat) (rdV : Str → Option V) (isFin : V → Bool) (nan : V) (hnan : ∀ v, isFin v = false ↔ v = nan) {args : List Str} {blocks : List (Nat × List (Bool × V))}
    (hb : Blocks rdId rdV args blocks) (t : Limits V) (h1 : t.tmin.length = t.ids.length) (h2 : t.tmax.length = t.ids.length) (hids : ∀ b ∈ blocks, b.1 ∈ t.ids)
    (i : Nat) (hi : i ∈ t.ids) (bs : List (Bool × V)) :
    ∃ t', limLoop rdId rdV isFin nan ⟨t, some i, lastBound nan true bs, lastBound nan false bs⟩ args = .ok (some t') ∧ t'.ids = t.ids ∧
      t'.tmin.length = t.ids.length ∧ t'.tmax.length = t.ids.length ∧
      ∀ id x, (∀ c, LastBlock isFin nan ((i, bs) :: blocks) id c → (HasLimits t' id x ↔ x = (lastBound nan true c, lastBound nan false c))) ∧
        ((¬ ∃ c, LastBlock isFin nan ((i, bs) :: blocks) id c) → (HasLimits t' id x ↔ HasLimits t id x)) := by
  have hn : isFin nan = false := (hnan nan).2 rfl
  induction hb generalizing t i bs with
  | nil =>
    obtain ⟨s', e1, e2, e3, e4, e5, e6⟩ := addCst_spec isFin nan hn t h1 h2 i hi bs _ rfl
    refine ⟨s'.tab, by unfold limLoop; rw [e1]; rfl, e2, e3, e4, fun id x => ⟨?_, ?_⟩⟩
    · rintro c ⟨pre, post, hpp, hg, -⟩
      obtain ⟨rfl, hpp2⟩ : pre = [] ∧ (i, bs) = (id, c) := by
        cases pre with
        | nil => exact ⟨rfl, (List.cons.inj hpp).1⟩
        | cons y pre => have := (List.cons.inj hpp).2; simp at this
      obtain ⟨rfl, rfl⟩ := Prod.mk.inj hpp2
      rw [(e5 hg).2.2, if_pos rfl]
    · intro hno
      by_cases hg : Gives isFin nan bs
      · rw [(e5 hg).2.2, if_neg]
        rintro rfl
        exact hno ⟨bs, [], [], rfl, hg, by simp⟩
      · rw [e6 hg]
  | @cons a j l r cs blocks ha hj hl hb ih =>
    obtain ⟨s', e1, e2, e3, e4, e5, e6⟩ := addCst_spec isFin nan hn t h1 h2 i hi bs _ rfl
    have hmm : s'.mi = nan ∧ s'.ma = nan := by
      by_cases hg : Gives isFin nan bs
      · exact ⟨(e5 hg).1, (e5 hg).2.1⟩
      · rw [e6 hg]
        unfold Gives at hg
        rw [not_or] at hg
        exact ⟨(hnan _).1 (by simpa using hg.1), (hnan _).1 (by simpa using hg.2)⟩
    obtain ⟨t', f1, f2, f3, f4, f5⟩ := ih s'.tab (by rw [e2]; exact e3) (by rw [e2]; exact e4) (fun b hb => by rw [e2]; exact hids b (by simp [hb])) j (by rw [e2]; exact hids (j, cs) (by simp)) cs
    refine ⟨t', ?_, by rw [f2, e2], by rw [f3, e2], by rw [f4, e2], fun id x => ⟨?_, ?_⟩⟩
    · unfold limLoop
      have : limArg rdId rdV isFin nan ⟨t, some i, lastBound nan true bs, lastBound nan false bs⟩ a = .ok (some { s' with id := some j }) := by
        unfold limArg
        rw [split_one ha, Res.ok_bind]
        dsimp only
        rw [e1]
        dsimp only
        rw [hj]
        rfl
      rw [this, Res.ok_bind]
      dsimp only
      rw [limLoop_bounds rdId rdV isFin nan hl, hmm.1, hmm.2]
      exact f1
    · rintro c ⟨pre, post, hpp, hg, hlast⟩
      cases pre with
      | nil =>
        obtain ⟨q1, rfl⟩ := List.cons.inj hpp
        obtain ⟨rfl, rfl⟩ := Prod.mk.inj q1
        rw [(f5 i x).2, (e5 hg).2.2, if_pos rfl]
        rintro ⟨d, pre, post, hpp', hg', -⟩
        refine hlast (i, d) ?_ rfl hg'
        rw [hpp']; simp
      | cons y pre =>
        exact (f5 id x).1 c ⟨pre, post, (List.cons.inj hpp).2, hg, hlast⟩
    · intro hno
      rw [(f5 id x).2]
      · by_cases hg : Gives isFin nan bs
        · rw [(e5 hg).2.2, if_neg]
          rintro rfl
          by_cases hex : ∃ c, LastBlock isFin nan ((j, cs) :: blocks) i c
          · obtain ⟨c, pre, post, hpp, hg', hl'⟩ := hex
            exact hno ⟨c, (i, bs) :: pre, post, by rw [hpp]; rfl, hg', hl'⟩
          · refine hno ⟨bs, [], (j, cs) :: blocks, rfl, hg, ?_⟩
            intro b hbm hbi hgb
            apply hex
            -- the last one that gives a limit
            have : ∀ (L : List (Nat × List (Bool × V))), (∃ b ∈ L, b.1 = i ∧ Gives isFin nan b.2) → ∃ c, LastBlock isFin nan L i c := by
              intro L
              induction L with
              | nil => rintro ⟨b, hb, _⟩; simp at hb
              | cons y L ihL =>
                intro hex
                by_cases hL : ∃ b ∈ L, b.1 = i ∧ Gives isFin nan b.2
                · obtain ⟨c, pre, post, hpp, hg', hl'⟩ := ihL hL
                  exact ⟨c, y :: pre, post, by rw [hpp]; rfl, hg', hl'⟩
                · obtain ⟨b, hb, hbi, hgb⟩ := hex
                  rcases List.mem_cons.1 hb with rfl | hb
                  · refine ⟨b.2, [], L, ?_, hgb, fun c hc hci hgc => hL ⟨c, hc, hci, hgc⟩⟩
                    rw [← hbi]; rfl
                  · exact absurd ⟨b, hb, hbi, hgb⟩ hL
            exact this _ ⟨b, hbm, hbi, hgb⟩
        · rw [e6 hg]
      · rintro ⟨c, pre, post, hpp, hg', hl'⟩
        exact hno ⟨c, (i, bs) :: pre, post, by rw [hpp]; rfl, hg', hl'⟩

/-! ### C189 -/

/-- `pixfit-addtdcst`: the limits of a source are those of the last block of arguments that gives a limit for it, and those in the file without one.
The limit that this block does not give is left undefined. Values that are not finite are all the same here, which the code also does not tell apart. -/
theorem C189_limits (rdId : Str → Option Nat) (rdV : Str → Option V) (isFin : V → Bool) (nan : V) (hnan : ∀ v, isFin v = false ↔ v = nan) (t : Limits V) (args : List Str)
    (blocks : List (Nat × List (Bool × V))) (hb : Blocks rdId rdV args blocks) (h1 : t.tmin.length = t.ids.length) (h2 : t.tmax.length = t.ids.length)
    (hids : ∀ b ∈ blocks, b.1 ∈ t.ids) :
    ∃ t', addLimits rdId rdV isFin nan t args = .ok (some t') ∧ t'.ids = t.ids ∧
      ∀ id x, (∀ bs, LastBlock isFin nan blocks id bs → (HasLimits t' id x ↔ x = (lastBound nan true bs, lastBound nan false bs))) ∧
        ((¬ ∃ bs, LastBlock isFin nan blocks id bs) → (HasLimits t' id x ↔ HasLimits t id x)) := by
  have hn : isFin nan = false := (hnan nan).2 rfl
  unfold addLimits
  cases hb with
  | nil =>
    refine ⟨t, by unfold limLoop addCst; simp [hn], rfl, fun id x => ⟨?_, fun _ => Iff.rfl⟩⟩
    rintro bs ⟨pre, post, hpp, _⟩
    simp at hpp
  | @cons a j l r cs blocks ha hj hl hb =>
    obtain ⟨t', f1, f2, -, -, f5⟩ := limLoop_spec rdId rdV isFin nan hnan hb t h1 h2 (fun b hb => hids b (by simp [hb])) j (hids (j, cs) (by simp)) cs
    refine ⟨t', ?_, f2, f5⟩
    unfold limLoop
    have : limArg rdId rdV isFin nan ⟨t, none, nan, nan⟩ a = .ok (some ⟨t, some j, nan, nan⟩) := by
      unfold limArg
      rw [split_one ha, Res.ok_bind]
      dsimp only
      rw [show addCst isFin nan ⟨t, none, nan, nan⟩ = some ⟨t, none, nan, nan⟩ by unfold addCst; simp [hn]]
      dsimp only
      rw [hj]
      rfl
    rw [this, Res.ok_bind]
    dsimp only
    rw [limLoop_bounds rdId rdV isFin nan hl]
    exact f1

/-- A limit before the first source is an error, and the file is left as it was. -/
theorem C189_first (rdId : Str → Option Nat) (rdV : Str → Option V) (isFin : V → Bool) (nan : V) (t : Limits V) (l : List Str) (bs : List (Bool × V)) (hb : Bounds rdV l bs)
    (hg : Gives isFin nan bs) (a : Str) (ha : '=' ∉ a) (r : List Str) :
    addLimits rdId rdV isFin nan t l = .ok none ∧ addLimits rdId rdV isFin nan t (l ++ a :: r) = .ok none := by
  have hc : addCst isFin nan (⟨t, none, lastBound nan true bs, lastBound nan false bs⟩ : LimState V) = none := by
    unfold addCst
    dsimp only
    rw [if_pos (by rw [Bool.or_eq_true]; exact hg)]
  unfold addLimits
  constructor
  · have := limLoop_bounds rdId rdV isFin nan hb ⟨t, none, nan, nan⟩ []
    rw [List.append_nil] at this
    rw [this]
    unfold limLoop
    exact congrArg (fun o => Res.ok (Option.map LimState.tab o)) hc
  · rw [limLoop_bounds rdId rdV isFin nan hb]
    unfold limLoop
    have : limArg rdId rdV isFin nan ⟨t, none, lastBound nan true bs, lastBound nan false bs⟩ a = .ok none := by
      unfold limArg
      rw [split_one ha, Res.ok_bind]
      dsimp only
      rw [hc]
    erw [this]
    rfl

/-- two sources with both limits -/
def exLimits : Limits (Option Nat) := ⟨[1, 2], [some 3, some 4], [some 8, some 9]⟩

/-- a digit that is a value -/
def digitVal (s : Str) : Option (Option Nat) := (digitOf s).map some

/-- A new lower limit erases the upper limit that the source had. -/
theorem C189_refuted : addLimits digitOf digitVal Option.isSome none exLimits ["1".toList, "min=5".toList] = .ok (some ⟨[1, 2], [some 5, some 4], [none, some 9]⟩) := by
  have h1 : split "1".toList ['='] = .ok ["1".toList] := split_one (by decide)
  have hb : split "min=5".toList ['='] = .ok ["min".toList, "5".toList] := split_two (a := "min".toList) (b := "5".toList) (by decide) (by decide)
  unfold addLimits exLimits
  simp only [limLoop, limArg, h1, hb, Res.ok_bind]
  decide +kernel

example : Blocks digitOf digitVal ["1".toList, "min=5".toList, "max=7".toList, "2".toList, "max=6".toList] [(1, [(true, some 5), (false, some 7)]), (2, [(false, some 6)])] :=
  .cons (l := ["min=5".toList, "max=7".toList]) (by decide) (by decide) (.lo (a := "5".toList) (by decide) (by decide) (.hi (a := "7".toList) (by decide) (by decide) .nil))
    (.cons (l := ["max=6".toList]) (r := []) (by decide) (by decide) (.hi (a := "6".toList) (by decide) (by decide) .nil) .nil)

example : LastBlock Option.isSome none [(1, [(true, some 5), (false, some 7)]), (2, [(false, some 6)])] 1 [(true, some 5), (false, some 7)] :=
  ⟨[], [(2, [(false, some 6)])], rfl, Or.inl rfl, by simp⟩

end Verif.Pixfit
