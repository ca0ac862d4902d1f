import Verif.Io.HeaderFile
import Verif.Io.HeaderProps
import Verif.Io.AsciiProps
import Verif.Io.PathProps
/-!
# C163-C165: headers and keywords of FITS files on disk, lists of FITS files
-/
namespace Verif.Fits
open Verif Verif.Str

/-! ### Spec -/

/-- Spec: the keywords that describe the structure of the file -/
def Managed (n : Str) : Prop :=
  n ∈ ["SIMPLE", "BITPIX", "EXTEND", "XTENSION", "EXTNAME", "PCOUNT", "GCOUNT"].map String.toList ∨ "NAXIS".toList <+: n

/-- Spec: the cards that are copied: not the end mark, not a card of the structure of the file -/
def Copied (c : Str) : Prop := ¬ "END ".toList <+: c ∧ ∀ n, nameOf c = some n → ¬ Managed n

open Classical in
/-- Spec: the copied cards of a header, with 80 characters each -/
noncomputable def copied (hdr : Str) : List Str := ((cardsOf hdr).filter fun c => Copied c).map padCard

/-! ### Lemmas -/

theorem internal_iff (n : Str) : internal n = true ↔ Managed n := by
  unfold internal Managed
  rw [List.map_cons, List.map_cons, List.map_cons, List.map_cons, List.map_cons, List.map_cons, List.map_cons, List.map_nil]
  generalize "SIMPLE".toList = x1
  generalize "BITPIX".toList = x2
  generalize "EXTEND".toList = x3
  generalize "XTENSION".toList = x4
  generalize "EXTNAME".toList = x5
  generalize "PCOUNT".toList = x6
  generalize "GCOUNT".toList = x7
  generalize "NAXIS".toList = x8
  simp only [Bool.or_eq_true, decide_eq_true_eq, C36_begins_with, List.mem_cons, List.not_mem_nil, or_false]
  tauto

theorem skipCard_eq (c : Str) : ∃ b, skipCard c = .ok b ∧ (b = true ↔ ¬ Copied c) := by
  unfold skipCard Copied
  by_cases h : beginsWith c "END ".toList = true
  · rw [if_pos h]
    exact ⟨true, rfl, fun _ hh => hh.1 ((C36_begins_with _ _).1 h), fun _ => rfl⟩
  · rw [if_neg h]
    have h' : ¬ "END ".toList <+: c := fun x => h ((C36_begins_with _ _).2 x)
    rcases eq_pos c with ⟨h1, h2⟩ | ⟨q, h1, h2, h3, h4, h5, h6⟩
    · rw [h1]
      exact ⟨false, rfl, by simp [h2]; exact h'⟩
    · rw [h1]
      simp only
      unfold substr
      rw [if_neg (by omega), List.drop_zero, Res.ok_bind, trim_strip, Res.ok_bind]
      refine ⟨_, rfl, ?_⟩
      rw [internal_iff, h5]
      constructor
      · intro hm hh; exact hh.2 _ rfl hm
      · intro hh
        by_contra hm
        exact hh ⟨h', fun n hn => by cases hn; exact hm⟩

open Classical in
theorem writeLoop_eq (legal : Str → Bool) (hdr : Str) : ∀ (l : List Nat) (cs : List Str), (∀ i ∈ l, i < hdr.length / 80 + 1) →
    writeLoop legal hdr l cs =
      if ∀ c ∈ (l.map fun i => (hdr.drop (i * 80)).take 80).filter fun c => Copied c, legal c = true then
        .ok (cs ++ ((l.map fun i => (hdr.drop (i * 80)).take 80).filter fun c => Copied c).map padCard)
      else .abort := by
  intro l
  induction l with
  | nil => intro cs _; simp [writeLoop]
  | cons i l ih =>
    intro cs hi
    have ih := fun cs => ih cs fun j hj => hi j (by simp [hj])
    rw [writeLoop, entryAt_eq hdr i (hi i (by simp)), Res.ok_bind]
    obtain ⟨b, hb, hc⟩ := skipCard_eq ((hdr.drop (i * 80)).take 80)
    rw [hb, Res.ok_bind, List.map_cons]
    cases b with
    | true =>
      have hn := hc.1 rfl
      rw [if_pos rfl, ih, List.filter_cons_of_neg (by simpa using hn)]
    | false =>
      have hn : Copied ((hdr.drop (i * 80)).take 80) := by
        by_contra hh; exact absurd (hc.2 hh) (by simp)
      rw [if_neg (by simp), List.filter_cons_of_pos (by simpa using hn)]
      by_cases hl : legal ((hdr.drop (i * 80)).take 80) = true
      · rw [if_pos hl, ih]
        by_cases ha : ∀ c ∈ (l.map fun i => (hdr.drop (i * 80)).take 80).filter fun c => Copied c, legal c = true
        · rw [if_pos ha, if_pos]
          · simp
          · intro c hc
            rcases List.mem_cons.1 hc with rfl | hc
            · exact hl
            · exact ha c hc
        · rw [if_neg ha, if_neg]
          intro hh; exact ha fun c hc => hh c (List.mem_cons_of_mem _ hc)
      · rw [if_neg hl, if_neg]
        intro hh; exact hl (hh _ (by simp))

theorem cards_length (h c : Str) (hc : c ∈ cardsOf h) : c.length ≤ 80 := by
  unfold cardsOf at hc
  obtain ⟨i, -, rfl⟩ := List.mem_map.1 hc
  simp [Nat.min_le_left]

theorem blank_ne (b : Str) (hb : ∀ c ∈ b, c = ' ') (x : Char) (hx : x ≠ ' ') : x ∉ b := fun h => hx (hb x h)

theorem nameOf_pad (c : Str) : nameOf (padCard c) = nameOf c := by
  have hb : ∀ x ∈ List.replicate (80 - c.length) ' ', x = ' ' := fun x hx => List.eq_of_mem_replicate hx
  unfold nameOf padCard
  generalize List.replicate (80 - c.length) ' ' = b at hb
  by_cases h : '=' ∈ c
  · rw [if_pos (by simp [h]), if_pos h, List.takeWhile_append]
    rw [if_neg]
    intro hh
    have : c.takeWhile (· ≠ '=') = c := (List.takeWhile_prefix _).eq_of_length_le (by omega)
    rw [← this] at h
    exact absurd (List.mem_takeWhile_imp h) (by simp)
  · rw [if_neg h, if_neg]
    simp [h, blank_ne b hb '=' (by decide)]

theorem takeWhile_all {p : Char → Bool} {b : Str} (h : ∀ c ∈ b, p c = true) : b.takeWhile p = b := by
  induction b with
  | nil => rfl
  | cons c b ih => rw [List.takeWhile_cons_of_pos (h c (by simp)), ih fun c hc => h c (by simp [hc])]

theorem valueOf_pad (c : Str) (h : '=' ∈ c) : valueOf (padCard c) = valueOf c := by
  have hb : ∀ x ∈ List.replicate (80 - c.length) ' ', x = ' ' := fun x hx => List.eq_of_mem_replicate hx
  unfold valueOf padCard
  generalize List.replicate (80 - c.length) ' ' = b at hb
  have hd : c.dropWhile (· ≠ '=') ≠ [] := by
    intro hh
    rw [List.dropWhile_eq_nil_iff] at hh
    exact absurd (hh '=' h) (by simp)
  rw [List.dropWhile_append, if_neg (by simpa using hd)]
  obtain ⟨x, t, ht⟩ := List.exists_cons_of_ne_nil hd
  rw [ht, List.cons_append, List.drop_succ_cons, List.drop_zero, List.drop_succ_cons, List.drop_zero, List.takeWhile_append]
  by_cases hl : (t.takeWhile (· ≠ '/')).length = t.length
  · have h1 : t.takeWhile (· ≠ '/') = t := (List.takeWhile_prefix _).eq_of_length_le (by omega)
    rw [if_pos hl, h1, takeWhile_all (fun c hc => by simp [hb c hc])]
    have := strip_pad (a := []) (b := b) t (by simp) (fun c hc => by rw [hb c hc]; decide)
    simpa using this
  · rw [if_neg hl]

theorem strip_END (t : Str) : strip ("END ".toList ++ t) = "END".toList ∨ "END ".toList <+: strip ("END ".toList ++ t) := by
  obtain ⟨a, b, e, h1, h2, h3, h4⟩ := strip_spec ("END ".toList ++ t)
  generalize strip ("END ".toList ++ t) = m at *
  have ha : a = [] := by
    cases a with
    | nil => rfl
    | cons x a =>
      have : x = 'E' := by
        have := congrArg List.head? e
        simp only [List.cons_append, List.head?_cons] at this
        exact (Option.some.inj this).symm
      have hx := h1 x (by simp)
      rw [this] at hx
      exact absurd hx (by decide)
  subst ha
  rw [List.nil_append] at e
  rcases Nat.lt_or_ge m.length 4 with hl | hl
  · left
    have hm : m = "END ".toList.take m.length := by
      have := congrArg (List.take m.length) e
      rw [List.take_append_of_le_length (by simp; omega), List.take_append_of_le_length (Nat.le_refl _), List.take_length] at this
      exact this.symm
    have hbb : "END ".toList.drop m.length ++ t = b := by
      have := congrArg (List.drop m.length) e
      rw [List.drop_append_of_le_length (by simp; omega), List.drop_append_of_le_length (Nat.le_refl _), List.drop_length] at this
      exact this
    by_cases h3' : m.length = 3
    · rw [hm, h3']; rfl
    · exfalso
      have : 'D' ∈ b := by
        rw [← hbb, List.mem_append]
        left
        have : m.length = 0 ∨ m.length = 1 ∨ m.length = 2 := by omega
        rcases this with h | h | h <;> rw [h] <;> decide
      exact absurd (h2 _ this) (by decide)
  · right
    rw [List.prefix_iff_eq_take]
    have := congrArg (List.take 4) e
    rw [List.take_append_of_le_length (l₁ := m) hl] at this
    exact this

theorem name_of_end (c n : Str) (h : "END ".toList <+: c) (hn : nameOf c = some n) : n = "END".toList ∨ "END ".toList <+: n := by
  obtain ⟨t, rfl⟩ := h
  unfold nameOf at hn
  split at hn
  · rw [Option.some.injEq] at hn
    rw [List.takeWhile_append_of_pos (by decide)] at hn
    rw [← hn]
    exact strip_END _
  · exact absurd hn (by simp)

open Classical in
theorem lookup_copied (l : List Str) (key : Str) (hm : ¬ Managed key) (he : key ≠ "END".toList) (he' : ¬ "END ".toList <+: key) :
    lookup ((l.filter fun c => Copied c).map padCard) key = lookup l key := by
  induction l with
  | nil => rfl
  | cons c l ih =>
    by_cases hc : Copied c
    · rw [List.filter_cons_of_pos (by simpa using hc), List.map_cons, lookup_cons, lookup_cons, ih, nameOf_pad]
      by_cases hk : nameOf c = some key
      · rw [if_pos hk, if_pos hk, valueOf_pad]
        by_contra hh
        unfold nameOf at hk
        rw [if_neg hh] at hk
        exact absurd hk (by simp)
      · rw [if_neg hk, if_neg hk]
    · rw [List.filter_cons_of_neg (by simpa using hc), ih, lookup_cons, if_neg]
      intro hk
      unfold Copied at hc
      rw [not_and_or, not_not] at hc
      rcases hc with h | h
      · rcases name_of_end c key h hk with h | h
        · exact he h
        · exact he' h
      · push Not at h
        obtain ⟨n, hn, h⟩ := h
        rw [hn] at hk
        cases hk
        exact hm h

/-! ### Headers -/

/-- **C163** writing a header into a file adds its cards after those of the file, in order and completed to 80
characters, except the end mark and the cards of the structure of the file; it fails when (and only when) one
of these has a name that cannot be written. -/
theorem C163_written (legal : Str → Bool) (hdr : Str) (cs : List Str) :
    ((∀ c ∈ cardsOf hdr, Copied c → legal c = true) → writeHeader legal hdr cs = .ok (cs ++ copied hdr)) ∧
    ((∃ c ∈ cardsOf hdr, Copied c ∧ legal c = false) → writeHeader legal hdr cs = .abort) := by
  classical
  have e := writeLoop_eq legal hdr _ cs fun i hi => List.mem_range.1 hi
  have hC : (List.range (hdr.length / 80 + 1)).map (fun i => (hdr.drop (i * 80)).take 80) = cardsOf hdr := rfl
  rw [hC] at e
  unfold writeHeader copied
  rw [e]
  constructor
  · intro h
    rw [if_pos]
    · intro c hc
      rw [List.mem_filter] at hc
      exact h c hc.1 (by simpa using hc.2)
  · rintro ⟨c, h1, h2, h3⟩
    rw [if_neg]
    intro hh
    rw [hh c (List.mem_filter.2 ⟨h1, by simpa using h2⟩)] at h3
    exact absurd h3 (by simp)

/-- **C163** after a header is written into a file, the header read from the file gives for each keyword the value
it had in the file before, and otherwise the value it has in the written header. -/
theorem C163_keywords_partial (legal : Str → Bool) (hdr : Str) (cs cs' : List Str) (hcs : ∀ c ∈ cs, c.length = 80)
    (hw : writeHeader legal hdr cs = .ok cs') (key : Str) (hm : ¬ Managed key) (he : key ≠ "END".toList)
    (he' : ¬ "END ".toList <+: key) :
    getkey (readHeader cs') key = .ok ((lookup cs key).or (lookup (cardsOf hdr) key)) := by
  classical
  have hc : cs' = cs ++ copied hdr := by
    by_cases h : ∀ c ∈ cardsOf hdr, Copied c → legal c = true
    · rw [(C163_written legal hdr cs).1 h] at hw
      exact (Res.ok.inj hw).symm
    · push Not at h
      obtain ⟨c, h1, h2, h3⟩ := h
      rw [(C163_written legal hdr cs).2 ⟨c, h1, h2, by simpa using h3⟩] at hw
      exact absurd hw (by simp)
  have hl : ∀ c ∈ cs' ++ [padCard "END".toList], c.length = 80 := by
    intro c hx
    rw [hc] at hx
    rcases List.mem_append.1 hx with hx | hx
    · rcases List.mem_append.1 hx with hx | hx
      · exact hcs c hx
      · unfold copied at hx
        obtain ⟨d, hd, rfl⟩ := List.mem_map.1 hx
        exact padCard_length d (cards_length hdr d (List.mem_filter.1 hd).1)
    · rw [List.mem_singleton.1 hx]; exact padCard_length _ (by decide)
  have hE : lookup [padCard "END".toList] key = none := by
    rw [lookup_none]
    intro c hc
    rw [List.mem_singleton.1 hc, nameOf_pad]
    have : nameOf "END".toList = none := rfl
    rw [this]
    exact fun h => by cases h
  rw [C120_get]
  unfold readHeader
  rw [cardsOf_flatten _ hl, lookup_nil_card, lookup_append, hE, Option.or_none, hc, lookup_append]
  unfold copied
  rw [lookup_copied _ key hm he he']

/-- **C163, refuted** a keyword that the file already has is not updated by writing a header with another value -/
theorem C163_update_refuted : ∃ (hdr : Str) (cs' : List Str),
    writeHeader (fun _ => true) hdr [padCard "K       = 1".toList] = .ok cs' ∧
    getkey hdr "K".toList = .ok (some "2".toList) ∧ getkey (readHeader cs') "K".toList = .ok (some "1".toList) :=
  ⟨"K       = 2".toList, _, rfl, by decide +kernel, by decide +kernel⟩

/-- **C163, refuted** copying the header of a file into another file does not give the same header: a blank card is
added each time -/
theorem C163_copy_refuted (legal : Str → Bool) (cs : List Str) (hcs : ∀ c ∈ cs, c.length = 80) (hk : ∀ c ∈ cs, Copied c)
    (hl : ∀ c ∈ cs, legal c = true) (h0 : legal [] = true) :
    writeHeader legal (readHeader cs) [] = .ok (cs ++ [List.replicate 80 ' ']) ∧
    readHeader (cs ++ [List.replicate 80 ' ']) ≠ readHeader cs := by
  classical
  have hC : cardsOf (readHeader cs) = cs ++ [padCard "END".toList] ++ [[]] := by
    unfold readHeader
    rw [cardsOf_flatten]
    intro c hx
    rcases List.mem_append.1 hx with hx | hx
    · exact hcs c hx
    · rw [List.mem_singleton.1 hx]; exact padCard_length _ (by decide)
  have hE : ¬ Copied (padCard "END".toList) := fun h => h.1 ⟨List.replicate 76 ' ', by decide +kernel⟩
  have hN : Copied [] := ⟨by decide, by intro n hn; exact absurd hn (by simp [nameOf])⟩
  constructor
  · rw [(C163_written legal _ []).1]
    · unfold copied
      rw [hC, List.filter_append, List.filter_append, List.filter_cons_of_neg (by simpa using hE), List.filter_cons_of_pos (by simpa using hN),
        List.filter_eq_self.2 (by simpa using hk)]
      simp only [List.filter_nil, List.append_nil, List.nil_append, List.map_append, List.map_cons, List.map_nil]
      congr 2
      conv_rhs => rw [← List.map_id cs]
      refine List.map_congr_left fun c hc => ?_
      unfold padCard
      rw [hcs c hc]
      exact List.append_nil c
    · intro c hc hcp
      rw [hC] at hc
      rcases List.mem_append.1 hc with hc | hc
      · rcases List.mem_append.1 hc with hc | hc
        · exact hl c hc
        · rw [List.mem_singleton.1 hc] at hcp
          exact absurd hcp hE
      · rw [List.mem_singleton.1 hc]; exact h0
  · intro h
    have := congrArg List.length h
    unfold readHeader at this
    simp only [List.flatten_append, List.length_append] at this
    have e1 : [List.replicate 80 ' '].flatten.length = 80 := by decide +kernel
    rw [e1] at this
    omega

/-- **C163, refuted** keywords of the user can be lost: the name of the extension, and names that begin like those
of the dimensions -/
theorem C163_lost_refuted : ∃ hdr : Str, getkey hdr "NAXISTYP".toList = .ok (some "3".toList) ∧
    ∃ cs', writeHeader (fun _ => true) hdr [] = .ok cs' ∧ getkey (readHeader cs') "NAXISTYP".toList = .ok none :=
  ⟨"NAXISTYP= 3".toList, by decide +kernel, _, rfl, by decide +kernel⟩

example : ¬ Managed "CRVAL1".toList ∧ writeHeader (fun _ => true) "CRVAL1  = 5".toList [padCard "K = 1".toList] =
    .ok [padCard "K = 1".toList, padCard "CRVAL1  = 5".toList] ∧ Copied (padCard "K = 1".toList) := by
  refine ⟨by unfold Managed; decide, by decide +kernel, by decide +kernel, ?_⟩
  intro n hn
  have : nameOf (padCard "K = 1".toList) = some "K".toList := by decide +kernel
  rw [this] at hn
  cases hn
  unfold Managed; decide

/-! ### Keywords -/

theorem rawKey_update (ks : Keys) (name v n : Str) : rawKey (updateKey ks name v) n = if n = name then some v else rawKey ks n := by
  induction ks with
  | nil =>
    unfold updateKey rawKey
    by_cases h : n = name
    · rw [if_pos h, List.find?_cons_of_pos (by simp [h])]; rfl
    · rw [if_neg h, List.find?_cons_of_neg (by simpa using fun e => h e.symm)]
  | cons k ks ih =>
    unfold updateKey
    unfold rawKey at ih ⊢
    by_cases hk : k.1 = name
    · rw [if_pos hk]
      by_cases h : n = name
      · rw [if_pos h, List.find?_cons_of_pos (by simp [h])]; rfl
      · rw [if_neg h, List.find?_cons_of_neg (by simpa using fun e => h e.symm), List.find?_cons_of_neg (by simpa [hk] using fun e => h e.symm)]
    · rw [if_neg hk]
      by_cases hn : k.1 = n
      · rw [List.find?_cons_of_pos (by simpa using hn), List.find?_cons_of_pos (by simpa using hn), if_neg]
        rw [← hn]; exact hk
      · rw [List.find?_cons_of_neg (by simpa using hn), List.find?_cons_of_neg (by simpa using hn), ih]

theorem trim_of {cs s m : Str} (h : IsTrim cs s m) : trim s cs = .ok m := by
  obtain ⟨x, h1, h2⟩ := C36_trim s cs
  rw [h1, isTrim_unique h2 h]

theorem quote_trim (v m : Str) (hq : '\'' ∉ v) (hm : IsTrim [' '] (v.take 68) m) : IsTrim [' ', '\''] (quoteValue v) m := by
  have hd : (v.flatMap fun c => if c = '\'' then ['\'', '\''] else [c]) = v := by
    clear hm
    induction v with
    | nil => rfl
    | cons c v ih =>
      rw [List.flatMap_cons, ih (fun h => hq (by simp [h])), if_neg (fun e => hq (by simp [e]))]; rfl
  unfold quoteValue
  rw [hd]
  obtain ⟨a, b, e, h1, h2, h3, h4⟩ := hm
  have hmv : ∀ c ∈ m, c ≠ '\'' := by
    intro c hc h
    rw [h] at hc
    exact hq (List.mem_of_mem_take (i := 68) (by rw [e]; simp [hc]))
  simp only
  refine ⟨'\'' :: a, b ++ List.replicate (8 - (v.take 68).length) ' ' ++ ['\''], ?_, ?_, ?_, ?_, ?_⟩
  · generalize List.replicate (8 - (v.take 68).length) ' ' = r
    rw [e]; simp
  · intro c hc
    rcases List.mem_cons.1 hc with rfl | hc
    · simp
    · have := h1 c hc
      rw [List.mem_singleton] at this
      simp [this]
  · intro c hc
    rcases List.mem_append.1 hc with hc | hc
    · rcases List.mem_append.1 hc with hc | hc
      · have := h2 c hc
        rw [List.mem_singleton] at this
        simp [this]
      · simp [List.eq_of_mem_replicate hc]
    · simp [List.mem_singleton.1 hc]
  · intro c hc
    have h := h3 c hc
    rw [List.mem_singleton] at h
    have h' := hmv c (List.mem_of_mem_head? hc)
    simp [h, h']
  · intro c hc
    have h := h4 c hc
    rw [List.mem_singleton] at h
    have h' := hmv c (List.mem_of_mem_getLast? hc)
    simp [h, h']

/-- **C164** a string without quotes that is written as a keyword is read back without the blanks around it, and
cut at 68 characters; the other keywords keep their values. -/
theorem C164_write_partial (ks : Keys) (name v m : Str) (hq : '\'' ∉ v) (hm : IsTrim [' '] (v.take 68) m) :
    readKeyword (writeKeyword ks name v) name = .ok (true, m) ∧ hasKeyword (writeKeyword ks name v) name = true ∧
    ∀ n, n ≠ name → readKeyword (writeKeyword ks name v) n = readKeyword ks n ∧
      readKeywordT (writeKeyword ks name v) n = readKeywordT ks n ∧ hasKeyword (writeKeyword ks name v) n = hasKeyword ks n := by
  unfold readKeywordT hasKeyword readKeyword writeKeyword
  rw [rawKey_update, if_pos rfl]
  refine ⟨?_, rfl, fun n hn => ?_⟩
  · rw [Option.getD_some, trim_of (quote_trim v m hq hm)]; rfl
  · rw [rawKey_update, if_neg hn]
    exact ⟨rfl, rfl, rfl⟩

/-- **C164** a string of at most 68 characters, without quotes and without blanks around it, is read back as it
was written -/
theorem C164_roundtrip_partial (ks : Keys) (name v : Str) (hq : '\'' ∉ v) (hl : v.length ≤ 68) (h1 : v.head? ≠ some ' ')
    (h2 : v.getLast? ≠ some ' ') : readKeyword (writeKeyword ks name v) name = .ok (true, v) := by
  refine (C164_write_partial ks name v v hq ⟨[], [], ?_, by simp, by simp, ?_, ?_⟩).1
  · rw [List.take_of_length_le hl]; simp
  · intro c hc h
    rw [List.mem_singleton] at h
    exact h1 (h ▸ hc)
  · intro c hc h
    rw [List.mem_singleton] at h
    exact h2 (h ▸ hc)

example : readKeyword (writeKeyword [("K".toList, "1".toList)] "OBJ".toList "M 31".toList) "OBJ".toList = .ok (true, "M 31".toList) := by
  decide +kernel

/-- **C164** adding a keyword gives its value only when the file had no keyword of that name -/
theorem C164_add (ks : Keys) (name v m : Str) (hq : '\'' ∉ v) (hm : IsTrim [' '] (v.take 68) m) :
    (hasKeyword ks name = false → readKeyword (addKeyword ks name v) name = .ok (true, m)) ∧
    (hasKeyword ks name = true → readKeyword (addKeyword ks name v) name = readKeyword ks name) ∧
    ∀ n, n ≠ name → readKeyword (addKeyword ks name v) n = readKeyword ks n := by
  have hr : ∀ n, rawKey (addKeyword ks name v) n = (rawKey ks n).or (if n = name then some (quoteValue v) else none) := by
    intro n
    unfold addKeyword rawKey
    rw [List.find?_append]
    cases ks.find? (fun k => decide (k.1 = n)) with
    | some k => rfl
    | none =>
      simp only [Option.none_or, Option.map_none]
      by_cases h : n = name
      · rw [if_pos h, List.find?_cons_of_pos (by simp [h])]; rfl
      · rw [if_neg h, List.find?_cons_of_neg (by simpa using fun e => h e.symm)]; rfl
  unfold hasKeyword readKeyword
  refine ⟨?_, ?_, ?_⟩
  · intro h
    rw [hr, Option.isSome_eq_false_iff.1 h |> Option.isNone_iff_eq_none.1, Option.none_or, if_pos rfl, Option.getD_some, trim_of (quote_trim v m hq hm)]
    rfl
  · intro h
    obtain ⟨x, hx⟩ := Option.isSome_iff_exists.1 h
    rw [hr, hx]; rfl
  · intro n hn
    rw [hr, if_neg hn, Option.or_none]

/-- **C164** a keyword that does not exist is reported, and the string given by the caller is made empty; a value
of another type is not read -/
theorem C164_missing (ks : Keys) (name : Str) (h : hasKeyword ks name = false) :
    readKeyword ks name = .ok (false, []) ∧ readKeywordT ks name = .ok none := by
  have hn : rawKey ks name = none := Option.isNone_iff_eq_none.1 (Option.isSome_eq_false_iff.1 h)
  have e : readKeyword ks name = .ok (false, []) := by
    unfold readKeyword
    rw [hn]; rfl
  unfold readKeywordT
  rw [e]
  exact ⟨rfl, rfl⟩

/-- **C164** the logical values `T` and `F` are read as the numbers 1 and 0; other values are read as they are
written -/
theorem C164_logical (ks : Keys) (name v : Str) (h : rawKey ks name = some v) :
    ∃ m, IsTrim [' ', '\''] v m ∧ readKeyword ks name = .ok (true, m) ∧ (m = "T".toList → readKeywordT ks name = .ok (some "1".toList)) ∧
      (m = "F".toList → readKeywordT ks name = .ok (some "0".toList)) ∧
      (m ≠ "T".toList → m ≠ "F".toList → readKeywordT ks name = .ok (some m)) := by
  obtain ⟨m, h1, h2⟩ := C36_trim v [' ', '\'']
  have e : readKeyword ks name = .ok (true, m) := by
    unfold readKeyword
    rw [h, Option.getD_some, h1]; rfl
  refine ⟨m, h2, e, ?_, ?_, ?_⟩
  · rintro rfl
    unfold readKeywordT
    rw [e]; rfl
  · rintro rfl
    unfold readKeywordT
    rw [e]; rfl
  · intro hT hF
    unfold readKeywordT
    rw [e, Res.ok_bind, if_neg (by simp)]
    simp only
    rw [if_neg (by exact hT), if_neg (by exact hF)]

/-- **C164, refuted** strings with quotes, with blanks before them, or longer than 68 characters are not read back -/
theorem C164_refuted : readKeyword (writeKeyword [] "K".toList "it's".toList) "K".toList = .ok (true, "it''s".toList) ∧
    readKeyword (writeKeyword [] "K".toList "'a'".toList) "K".toList = .ok (true, "a".toList) ∧
    readKeyword (writeKeyword [] "K".toList " a".toList) "K".toList = .ok (true, "a".toList) ∧
    ∀ ks name, readKeyword (writeKeyword ks name (List.replicate 69 'a')) name = .ok (true, List.replicate 68 'a') := by
  refine ⟨by decide +kernel, by decide +kernel, by decide +kernel, fun ks name => ?_⟩
  refine (C164_write_partial ks name _ _ (by decide) ⟨[], [], by decide, by simp, by simp, ?_, ?_⟩).1
  · intro c hc
    have : c = 'a' := List.eq_of_mem_replicate (List.mem_of_mem_head? hc)
    rw [this]; decide
  · intro c hc
    have : c = 'a' := List.eq_of_mem_replicate (List.mem_of_mem_getLast? hc)
    rw [this]; decide

/-! ### Lists of files -/

/-- Spec: the lines of a text that are not empty and not comments -/
def IsEntries (content : Str) (es : List Str) : Prop :=
  ∃ ls, IsSplit ['\n'] content ls ∧ es = ls.filter fun l => l ≠ [] ∧ ¬ ['#'] <+: l

/-- **C165** a list of files names the files of its lines that are neither empty nor comments, in order, in the
directory of the list itself; without any such line, or when the list cannot be opened, it is an error. -/
theorem C165_list (fs : Str → Option Str) (name dir content : Str)
    (hd : ('/' ∉ name ∧ dir = "./".toList) ∨ ∃ d b, name = d ++ '/' :: b ∧ '/' ∉ b ∧ (∃ c ∈ b, c ≠ ' ') ∧ dir = d ++ ['/'])
    (hf : fs name = some content) : ∃ es, IsEntries content es ∧
      (es ≠ [] → readSectfits fs name = .ok (es.map fun l => dir ++ l)) ∧ (es = [] → readSectfits fs name = .abort) := by
  have hdir : Io.getDirectory name = .ok dir := by
    rcases hd with ⟨h, rfl⟩ | ⟨d, b, rfl, hb, hv, rfl⟩
    · exact (Io.C44_name name h).1
    · exact (Io.C44_file d b hb hv).1
  refine ⟨_, ⟨Io.fileLines [] content, by simpa using Io.fileLines_split [] content (by simp), rfl⟩, ?_⟩
  have hfil : (Io.fileLines [] content).filter (fun l => decide (l ≠ []) && decide (l.head? ≠ some '#')) =
      (Io.fileLines [] content).filter fun l => decide (l ≠ [] ∧ ¬ ['#'] <+: l) := by
    refine List.filter_congr fun l _ => ?_
    rw [← Bool.decide_and]
    refine decide_eq_decide.2 (and_congr_right fun hl => not_congr ?_)
    obtain ⟨c, t, rfl⟩ := List.exists_cons_of_ne_nil hl
    constructor
    · intro h
      cases h
      exact ⟨t, rfl⟩
    · rintro ⟨t', h⟩
      rw [← h]; rfl
  unfold readSectfits
  rw [hf]
  simp only
  rw [hdir, Res.ok_bind, hfil]
  constructor
  · intro h
    rw [if_neg (by simpa using h)]
  · intro h
    rw [h]; rfl

/-- **C165** a list that cannot be opened is an error -/
theorem C165_missing (fs : Str → Option Str) (name : Str) (hf : fs name = none) : readSectfits fs name = .abort := by
  unfold readSectfits
  rw [hf]

/-- **C165** the header of section `sect` is read from entry `sect` of the list, with an error when there is no such
entry; a file that is not a list is read itself, whatever the section. -/
theorem C165_section (fs : Str → Option Str) (name : Str) (sect : Nat) :
    (¬ ".sectfits".toList <:+ name → sectFile fs name sect = .ok name) ∧
    (".sectfits".toList <:+ name → ∀ files, readSectfits fs name = .ok files →
      (∀ h : sect < files.length, sectFile fs name sect = .ok files[sect]) ∧ (files.length ≤ sect → sectFile fs name sect = .abort)) ∧
    (".sectfits".toList <:+ name → readSectfits fs name = .abort → sectFile fs name sect = .abort) := by
  unfold sectFile
  refine ⟨?_, ?_, ?_⟩
  · intro h
    rw [if_neg (fun x => h ((C36_ends_with _ _).1 x))]
  · intro h files hf
    rw [if_pos ((C36_ends_with _ _).2 h), hf, Res.ok_bind]
    constructor
    · intro hs
      rw [Res.check_pos (by simpa using hs), Res.ok_bind, Res.rd_lt hs]
    · intro hs
      rw [Res.check_neg (by simpa using hs)]; rfl
  · intro h hf
    rw [if_pos ((C36_ends_with _ _).2 h), hf]; rfl

/-- **C165, refuted** the end of line of other systems is kept in the names, and absolute names are not understood -/
theorem C165_refuted : readSectfits (fun _ => some "a.fits\r\n#c\n\n/data/b.fits".toList) "dir/l.sectfits".toList =
    .ok ["dir/a.fits\r".toList, "dir//data/b.fits".toList] := by
  decide +kernel

example : sectFile (fun _ => some "a.fits\n#c\n\nb.fits\n".toList) "dir/l.sectfits".toList 1 = .ok "dir/b.fits".toList := by
  decide +kernel

end Verif.Fits
