import Verif.Astro.SexProps
/-!
# Positions given on the command line (C235): `radec2pix` and `sex2deg` (`tools/radec2pix/radec2pix.cpp`, `tools/sex2deg/sex2deg.cpp`)

Simplified: the conversion of a position to pixels (`ad2xy`) is a given function, with NaN for NaN; `from_string` for numbers is a given partial function, whose
numbers are finite. The precision of printed numbers is left out.
-/
namespace Verif.Radec2Pix
open Verif Verif.Str Verif.Sex

variable {K : Type} [Field K] [LinearOrder K] [IsStrictOrderedRing K]

/-! ### Model -/

/-- what a program does: it prints its help, stops with an error, or prints the given lines (`none` for NaN) -/
inductive Done (L : Type) where
  | help
  | error
  | printed (lines : List L)
deriving DecidableEq

/-- one position (radec2pix.cpp:27-41), `none` for the exit with an error; the value returned by `sex2deg` is not used -/
def readPos (pd : Str → Option K) (sra sdec : Str) : Res (Option (Option K × Option K)) :=
  if ':' ∉ sra then
    match pd sra with
    | none => .ok none
    | some ra =>
      match pd sdec with
      | none => .ok none
      | some dec => .ok (some (some ra, some dec))
  else do
    let r ← sex2deg pd sra sdec
    .ok (some (r.2.1, r.2.2))

/-- the loop on the positions (radec2pix.cpp:25-43) -/
def readAll (pd : Str → Option K) : List Str → Res (Option (List (Option K × Option K)))
  | a :: b :: l => do
    let p ← readPos pd a b
    match p with
    | none => .ok none
    | some p => do
      let r ← readAll pd l
      .ok (r.map (p :: ·))
  | _ => .ok (some [])

/-- `ad2xy`, NaN for NaN -/
def toPixel (pix : K × K → K × K) : Option K × Option K → Option (K × K)
  | (some ra, some dec) => some (pix (ra, dec))
  | _ => none

/-- `vif_main` of radec2pix (radec2pix.cpp:8-51) on the arguments after the name of the image -/
def radec2pix (pix : K × K → K × K) (pd : Str → Option K) (args : List Str) : Res (Done (Option (K × K))) :=
  if args.length < 2 then .ok .help
  else if args.length % 2 ≠ 0 then .ok .error
  else do
    let r ← readAll pd args
    match r with
    | none => .ok .error
    | some l => .ok (.printed (l.map (toPixel pix)))

/-- `vif_main` of sex2deg (sex2deg.cpp:8-25) -/
def sex2degMain (pd : Str → Option K) : List Str → Res (Done (Option K × Option K))
  | sra :: sdec :: _ => do
    let r ← sex2deg pd sra sdec
    if r.1 then .ok (.printed [(r.2.1, r.2.2)]) else .ok .error
  | _ => .ok .help

/-! ### Specification -/

/-- Spec: the two texts of a position, both decimal or both sexagesimal -/
inductive IsPos (pd : Str → Option K) : Str → Str → K × K → Prop where
  | decimal {sra sdec : Str} {ra dec : K} (h : ':' ∉ sra) (h1 : pd sra = some ra) (h2 : pd sdec = some dec) : IsPos pd sra sdec (ra, dec)
  | sex {sra sdec : Str} {h m h' m' : Int} {s s' : K} (h1 : IsSex pd sra h m s) (h2 : IsSex pd sdec h' m' s') : IsPos pd sra sdec (15 * angle h m s, angle h' m' s')

/-! ### Helpers -/

variable [FloorRing K]

omit [IsStrictOrderedRing K] [FloorRing K] in
theorem sex_colon {pd : Str → Option K} {s : Str} {h m : Int} {x : K} (hs : IsSex pd s h m x) : ':' ∈ s := by
  obtain ⟨a, b, c, e, _⟩ := hs
  rw [e]
  simp [colons]

theorem readPos_ok {pd : Str → Option K} {sra sdec : Str} {p : K × K} (h : IsPos pd sra sdec p) : readPos pd sra sdec = .ok (some (some p.1, some p.2)) := by
  unfold readPos
  cases h with
  | decimal h h1 h2 => rw [if_pos h, h1, h2]
  | sex h1 h2 =>
    rw [if_neg (not_not.2 (sex_colon h1)), C105_parse h1 h2]
    rfl

theorem readAll_ok {pd : Str → Option K} : ∀ (l : List ((Str × Str) × (K × K))), (∀ q ∈ l, IsPos pd q.1.1 q.1.2 q.2) →
    readAll pd (l.flatMap fun q => [q.1.1, q.1.2]) = .ok (some (l.map fun q => (some q.2.1, some q.2.2)))
  | [], _ => rfl
  | q :: l, h => by
    rw [List.flatMap_cons]
    show readAll pd (q.1.1 :: q.1.2 :: l.flatMap fun q => [q.1.1, q.1.2]) = _
    rw [readAll, readPos_ok (h q List.mem_cons_self), Res.ok_bind]
    dsimp only
    rw [readAll_ok l fun x hx => h x (List.mem_cons_of_mem _ hx), Res.ok_bind]
    rfl

theorem readPos_total (pd : Str → Option K) (a b : Str) : ∃ r, readPos pd a b = .ok r := by
  unfold readPos
  split
  · cases pd a with
    | none => exact ⟨_, rfl⟩
    | some x => cases pd b <;> exact ⟨_, rfl⟩
  · obtain ⟨l, hl, _⟩ := C34_split a [':'] (by simp)
    obtain ⟨l', hl', _⟩ := C34_split b [':'] (by simp)
    unfold sex2deg
    rw [hl, hl', Res.ok_bind, Res.ok_bind]
    cases comps pd l <;> cases comps pd l' <;> exact ⟨_, rfl⟩

theorem readAll_total (pd : Str → Option K) : ∀ l, ∃ r, readAll pd l = .ok r
  | [] => ⟨_, rfl⟩
  | [_] => ⟨_, rfl⟩
  | a :: b :: l => by
    obtain ⟨r, hr⟩ := readPos_total pd a b
    obtain ⟨r', hr'⟩ := readAll_total pd l
    rw [readAll, hr, Res.ok_bind]
    cases r with
    | none => exact ⟨_, rfl⟩
    | some p =>
      dsimp only
      rw [hr', Res.ok_bind]
      exact ⟨_, rfl⟩

/-! ### C235 -/

/-- **C235**: with valid positions, the pixel coordinates of each are printed, in order. -/
theorem C235_pixels_partial (pix : K × K → K × K) {pd : Str → Option K} (l : List ((Str × Str) × (K × K))) (hne : l ≠ []) (h : ∀ q ∈ l, IsPos pd q.1.1 q.1.2 q.2) :
    radec2pix pix pd (l.flatMap fun q => [q.1.1, q.1.2]) = .ok (.printed (l.map fun q => some (pix q.2))) := by
  have hl : (l.flatMap fun q => [q.1.1, q.1.2]).length = 2 * l.length := by
    clear hne h
    induction l with
    | nil => rfl
    | cons a l ih => rw [List.flatMap_cons, List.length_append, ih, List.length_cons]; simp; omega
  have := List.length_pos_iff.2 hne
  unfold radec2pix
  rw [hl, if_neg (by omega), if_neg (by omega), readAll_ok l h, Res.ok_bind]
  simp [toPixel, Function.comp_def]

/-- **C235**: positions without a colon that are not numbers, wherever they are, and a number of texts that is odd, are refused: nothing is printed. -/
theorem C235_refused (pix : K × K → K × K) {pd : Str → Option K} (args : List Str) (h2 : 2 ≤ args.length)
    (h : args.length % 2 = 1 ∨ ∃ (i : Nat) (a b : Str), args[2 * i]? = some a ∧ args[2 * i + 1]? = some b ∧ ':' ∉ a ∧ (pd a = none ∨ pd b = none)) :
    radec2pix pix pd args = .ok .error := by
  unfold radec2pix
  rw [if_neg (by omega)]
  by_cases ho : args.length % 2 = 1
  · rw [if_pos (by omega)]
  · rw [if_neg (by omega)]
    obtain ⟨i, a, b, ha, hb, hc, hp⟩ := h.resolve_left ho
    have key : ∀ (i : Nat) (l : List Str), l[2 * i]? = some a → l[2 * i + 1]? = some b → readAll pd l = .ok none := by
      intro i
      induction i with
      | zero =>
        intro l h1 h2
        match l, h1, h2 with
        | [], h1, _ => simp at h1
        | [_], _, h2 => simp at h2
        | x :: y :: l, h1, h2 =>
          simp at h1 h2
          subst h1 h2
          have : readPos pd x y = .ok none := by
            unfold readPos
            rw [if_pos hc]
            rcases hp with hp | hp
            · rw [hp]
            · rw [hp]; cases pd x <;> rfl
          rw [readAll, this]
          rfl
      | succ i ih =>
        intro l h1 h2
        match l, h1, h2 with
        | [], h1, _ => simp at h1
        | [_], h1, _ => simp at h1
        | x :: y :: l, h1, h2 =>
          obtain ⟨r, hr⟩ := readPos_total pd x y
          rw [readAll, hr, Res.ok_bind]
          cases r with
          | none => rfl
          | some p =>
            dsimp only
            rw [ih l (by simpa [Nat.mul_succ] using h1) (by simpa [Nat.mul_succ] using h2)]
            rfl
    rw [key i args ha hb]
    rfl

/-- **C235** fails for a right ascension with a colon and a position that is not sexagesimal (for instance a decimal declination): no error, NaN is printed. -/
theorem C235_sexagesimal_refuted (pix : K × K → K × K) {pd : Str → Option K} {sra sdec : Str} (hc : ':' ∈ sra) (h : (∀ h m s, ¬ IsSex pd sra h m s) ∨ ∀ h m s, ¬ IsSex pd sdec h m s) :
    radec2pix pix pd [sra, sdec] = .ok (.printed [none]) := by
  have : readPos pd sra sdec = .ok (some (none, none)) := by
    unfold readPos
    rw [if_neg (not_not.2 hc), C105_refuse h]
    rfl
  unfold radec2pix
  rw [if_neg (by simp), if_neg (by simp), readAll, this]
  rfl

/-- **C235**: `sex2deg` prints the position of two sexagesimal texts and refuses the others. -/
theorem C235_sex2deg (pd : Str → Option K) (sra sdec : Str) (rest : List Str) :
    (∀ {h m h' m' : Int} {s s' : K}, IsSex pd sra h m s → IsSex pd sdec h' m' s' →
      sex2degMain pd (sra :: sdec :: rest) = .ok (.printed [(some (15 * angle h m s), some (angle h' m' s'))])) ∧
    (((∀ h m s, ¬ IsSex pd sra h m s) ∨ ∀ h m s, ¬ IsSex pd sdec h m s) → sex2degMain pd (sra :: sdec :: rest) = .ok .error) := by
  constructor
  · intro h m h' m' s s' h1 h2
    unfold sex2degMain
    dsimp only
    rw [C105_parse h1 h2]
    rfl
  · intro h
    unfold sex2degMain
    dsimp only
    rw [C105_refuse h]
    rfl

/-- a reader of numbers that knows a few of them -/
def exPd : Str → Option ℚ := fun s => if s = "00".toList then some 0 else if s = "10".toList then some 10 else if s = "20".toList then some 20 else none

/-- the hypotheses can be met: a decimal position and a sexagesimal one; and those of the refutation -/
example : IsPos exPd "10".toList "20".toList (10, 20) ∧ IsPos exPd "1:00:00".toList "-2:30:00".toList (15 * angle 1 0 0, angle (-2) 30 0) ∧
    (':' ∈ "1:00:00".toList ∧ ∀ h m s, ¬ IsSex exPd "20".toList h m s) := by
  refine ⟨.decimal (by decide) (by decide +kernel) (by decide +kernel), .sex ⟨"1".toList, "00".toList, "00".toList, by decide, by decide, by decide, by decide, by decide, by decide, by decide +kernel⟩
    ⟨"-2".toList, "30".toList, "00".toList, by decide, by decide, by decide, by decide, by decide, by decide, by decide +kernel⟩, by decide, fun h m s hs => ?_⟩
  have := sex_colon hs
  revert this
  decide

end Verif.Radec2Pix
