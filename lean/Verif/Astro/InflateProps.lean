import Verif.Astro.Filter
import Mathlib.Tactic.Linarith
/-!
# Property C66 (growing a mask)
-/
namespace Verif.Astro
open Verif

/-- Spec: some true pixel lies within Manhattan distance `d`. -/
def Near (m : Img Bool) (d x y : Nat) : Prop :=
  ∃ x' y' : Nat, m.at x' y' = some true ∧ ((x : Int) - x').natAbs + ((y : Int) - y').natAbs ≤ d

/-- a true pixel with a false neighbour -/
def Edge (m : Img Bool) (x y : Nat) : Prop :=
  m.at x y = some true ∧ ∃ x' y' : Nat, m.at x' y' = some false ∧ ((x : Int) - x').natAbs + ((y : Int) - y').natAbs = 1

theorem at_bool {m : Img Bool} (hw : m.WF) {x y : Nat} (hx : x < m.nx) (hy : y < m.ny) : m.at x y = some true ∨ m.at x y = some false := by
  obtain ⟨a, ha⟩ := at_isSome hw hx hy
  cases a <;> simp [ha]

theorem offAt_spec {m : Img Bool} (hw : m.WF) (c : Prop) [Decidable c] (x y : Nat) (h : c → x < m.nx ∧ y < m.ny) :
    ∃ b, offAt m c x y = .ok b ∧ (b = true ↔ c ∧ m.at x y = some false) := by
  unfold offAt
  split
  · rename_i hc
    obtain ⟨a, ha⟩ := at_isSome hw (h hc).1 (h hc).2
    rw [get_at ha]
    refine ⟨!a, rfl, ?_⟩
    rw [ha]; cases a <;> simp [hc]
  · rename_i hc
    exact ⟨false, rfl, by simp [hc]⟩

theorem isEdge_spec {m : Img Bool} (hw : m.WF) {x y : Nat} (hx : x < m.nx) (hy : y < m.ny) :
    ∃ b, isEdge m x y = .ok b ∧ (b = true ↔ Edge m x y) := by
  obtain ⟨b1, e1, f1⟩ := offAt_spec hw (x > 0) (x - 1) y (fun _ => by omega)
  obtain ⟨b2, e2, f2⟩ := offAt_spec hw (x < m.nx - 1) (x + 1) y (fun _ => by omega)
  obtain ⟨b3, e3, f3⟩ := offAt_spec hw (y > 0) x (y - 1) (fun _ => by omega)
  obtain ⟨b4, e4, f4⟩ := offAt_spec hw (y < m.ny - 1) x (y + 1) (fun _ => by omega)
  have key : (b1 = true ∨ b2 = true ∨ b3 = true ∨ b4 = true) ↔
      ∃ x' y' : Nat, m.at x' y' = some false ∧ ((x : Int) - x').natAbs + ((y : Int) - y').natAbs = 1 := by
    rw [f1, f2, f3, f4]
    constructor
    · rintro (⟨h, h'⟩ | ⟨h, h'⟩ | ⟨h, h'⟩ | ⟨h, h'⟩) <;> exact ⟨_, _, h', by omega⟩
    · rintro ⟨x', y', h, h'⟩
      have hl := at_lt h
      rcases Nat.lt_trichotomy x' x with hx' | hx' | hx'
      · left
        have : x' = x - 1 ∧ y' = y := by omega
        rw [← this.1, ← this.2]
        exact ⟨by omega, h⟩
      · subst hx'
        rcases Nat.lt_trichotomy y' y with hy' | hy' | hy'
        · right; right; left
          have : y' = y - 1 := by omega
          rw [← this]
          exact ⟨by omega, h⟩
        · omega
        · right; right; right
          have : y' = y + 1 := by omega
          rw [← this]
          exact ⟨by omega, h⟩
      · right; left
        have : x' = x + 1 ∧ y' = y := by omega
        rw [← this.1, ← this.2]
        exact ⟨by omega, h⟩
  unfold isEdge Edge
  rw [← key]
  rcases at_bool hw hx hy with h | h
  · rw [get_at h, Res.ok_bind, e1, e2, e3, e4, h]
    cases b1 <;> cases b2 <;> cases b3 <;> cases b4 <;> simp
  · rw [get_at h, Res.ok_bind, h]
    exact ⟨false, rfl, by simp⟩

theorem edges_spec {m : Img Bool} (hw : m.WF) :
    ∃ ids, for2 m.nx m.ny (fun x y ids => do
      let e ← isEdge m x y
      .ok (if e then ids ++ [x * m.ny + y] else ids)) [] = .ok ids ∧
      ∀ id, id ∈ ids ↔ ∃ x y, Edge m x y ∧ id = x * m.ny + y := by
  refine Exists.imp ?_ (for2_rule (nx := m.nx) (ny := m.ny) (body := fun x y ids => do
      let e ← isEdge m x y
      .ok (if e then ids ++ [x * m.ny + y] else ids))
    (fun x y ids => ∀ id, id ∈ ids ↔ ∃ x' y', Before x y x' y' ∧ Edge m x' y' ∧ id = x' * m.ny + y') []
    (fun id => by simp [Before]) ?_ ?_)
  · rintro ids ⟨h1, h2⟩
    refine ⟨h1, fun id => ?_⟩
    rw [h2 id]
    constructor
    · rintro ⟨x, y, -, h, h'⟩; exact ⟨x, y, h, h'⟩
    · rintro ⟨x, y, h, h'⟩; exact ⟨x, y, Or.inl (at_lt h.1).1, h, h'⟩
  · intro x y ids hx hy hi
    obtain ⟨b, e1, e2⟩ := isEdge_spec hw hx hy
    refine ⟨_, by rw [e1, Res.ok_bind], ?_⟩
    intro id
    have hbf : ∀ x' y', Before x (y + 1) x' y' ↔ Before x y x' y' ∨ (x' = x ∧ y' = y) := by
      intro x' y'; unfold Before; omega
    cases b with
    | true =>
      have he := e2.1 rfl
      simp only [if_true, List.mem_append, List.mem_singleton, hi id, hbf]
      constructor
      · rintro (⟨x', y', h1, h2, h3⟩ | h)
        · exact ⟨x', y', Or.inl h1, h2, h3⟩
        · exact ⟨x, y, Or.inr ⟨rfl, rfl⟩, he, h⟩
      · rintro ⟨x', y', h1 | ⟨rfl, rfl⟩, h2, h3⟩
        · exact Or.inl ⟨x', y', h1, h2, h3⟩
        · exact Or.inr h3
    | false =>
      simp only [Bool.false_eq_true, if_false, hi id, hbf]
      have he : ¬ Edge m x y := fun h => by simpa using e2.2 h
      constructor
      · rintro ⟨x', y', h1, h2, h3⟩
        exact ⟨x', y', Or.inl h1, h2, h3⟩
      · rintro ⟨x', y', h1 | ⟨rfl, rfl⟩, h2, h3⟩
        · exact ⟨x', y', h1, h2, h3⟩
        · exact absurd h2 he
  · intro x ids hx hi id
    rw [hi id]
    constructor
    · rintro ⟨x', y', h1, h2, h3⟩
      exact ⟨x', y', by unfold Before at *; omega, h2, h3⟩
    · rintro ⟨x', y', h1, h2, h3⟩
      have := at_lt h2.1
      exact ⟨x', y', by unfold Before at *; omega, h2, h3⟩

/-- the kernel holds exactly the offsets at distance 1 to `d` -/
theorem mem_kernel (d : Nat) (p : Int × Int) : p ∈ inflateKernel d ↔ 1 ≤ p.1.natAbs + p.2.natAbs ∧ p.1.natAbs + p.2.natAbs ≤ d := by
  unfold inflateKernel
  rw [List.mem_flatMap]
  have hmod : ∀ k l j : Nat, j * k ≤ l → l < j * k + k → (l % k : Nat) = l - j * k := by
    intro k l j h1 h2
    have : l = (l - j * k) + k * j := by rw [Nat.mul_comm k j]; omega
    rw [this, Nat.add_mul_mod_self_left, Nat.mod_eq_of_lt (by omega)]
    rw [Nat.mul_comm k j]; omega
  constructor
  · rintro ⟨k, hk, hp⟩
    rw [List.mem_range'_1] at hk
    obtain ⟨l, hl, rfl⟩ := List.mem_map.1 hp
    rw [List.mem_range] at hl
    have : (kernelPoint k l).1.natAbs + (kernelPoint k l).2.natAbs = k := by
      unfold kernelPoint
      simp only
      split
      · rw [hmod k l 0 (by omega) (by omega)]; simp only; omega
      · split
        · rw [hmod k l 1 (by omega) (by omega)]; simp only; omega
        · split
          · rw [hmod k l 2 (by omega) (by omega)]; simp only; omega
          · rw [hmod k l 3 (by omega) (by omega)]; simp only; omega
    omega
  · obtain ⟨x, y⟩ := p
    simp only
    intro h
    refine ⟨x.natAbs + y.natAbs, by rw [List.mem_range'_1]; omega, ?_⟩
    generalize hk : x.natAbs + y.natAbs = k at h ⊢
    rw [List.mem_map]
    by_cases h1 : 0 < x ∧ y ≤ 0
    · refine ⟨y.natAbs, List.mem_range.2 (by omega), ?_⟩
      unfold kernelPoint
      simp only
      rw [if_pos (by omega), hmod k _ 0 (by omega) (by omega)]
      apply Prod.ext <;> simp only <;> omega
    · by_cases h2 : x ≤ 0 ∧ y < 0
      · refine ⟨k + x.natAbs, List.mem_range.2 (by omega), ?_⟩
        unfold kernelPoint
        simp only
        rw [if_neg (by omega), if_pos (by omega), hmod k _ 1 (by omega) (by omega)]
        apply Prod.ext <;> simp only <;> omega
      · by_cases h3 : x < 0 ∧ 0 ≤ y
        · refine ⟨2 * k + y.natAbs, List.mem_range.2 (by omega), ?_⟩
          unfold kernelPoint
          simp only
          rw [if_neg (by omega), if_neg (by omega), if_pos (by omega), hmod k _ 2 (by omega) (by omega)]
          apply Prod.ext <;> simp only <;> omega
        · refine ⟨3 * k + x.natAbs, List.mem_range.2 (by omega), ?_⟩
          unfold kernelPoint
          simp only
          rw [if_neg (by omega), if_neg (by omega), if_neg (by omega), hmod k _ 3 (by omega) (by omega)]
          apply Prod.ext <;> simp only <;> omega

/-- a loop that sets pixels to true -/
theorem foldlM_mark {γ : Type} (nx ny : Nat) (f : Img Bool → γ → Res (Img Bool)) (S : γ → Nat → Nat → Prop)
    (hf : ∀ m c, m.WF → m.nx = nx → m.ny = ny → ∃ r, f m c = .ok r ∧ r.WF ∧ r.nx = nx ∧ r.ny = ny ∧
      ∀ x y, x < nx → y < ny → (r.at x y = some true ↔ m.at x y = some true ∨ S c x y))
    (l : List γ) (m : Img Bool) (hw : m.WF) (hx : m.nx = nx) (hy : m.ny = ny) :
    ∃ r, l.foldlM f m = .ok r ∧ r.WF ∧ r.nx = nx ∧ r.ny = ny ∧
      ∀ x y, x < nx → y < ny → (r.at x y = some true ↔ m.at x y = some true ∨ ∃ c ∈ l, S c x y) := by
  induction l generalizing m with
  | nil => exact ⟨m, rfl, hw, hx, hy, fun x y _ _ => by simp⟩
  | cons c l ih =>
    obtain ⟨r, r1, r2, r3, r4, r5⟩ := hf m c hw hx hy
    obtain ⟨s, s1, s2, s3, s4, s5⟩ := ih r r2 r3 r4
    refine ⟨s, by rw [List.foldlM_cons, r1, Res.ok_bind, s1], s2, s3, s4, ?_⟩
    intro x y hx hy
    rw [s5 x y hx hy, r5 x y hx hy]
    simp only [List.mem_cons, exists_eq_or_imp]
    tauto

/-- from a true pixel towards a false one, an edge is met -/
theorem exists_edge {m : Img Bool} (hw : m.WF) (n : Nat) : ∀ (x y x' y' : Nat), m.at x' y' = some true → m.at x y = some false →
    ((x : Int) - x').natAbs + ((y : Int) - y').natAbs = n →
    ∃ a b, Edge m a b ∧ ((x : Int) - a).natAbs + ((y : Int) - b).natAbs ≤ n := by
  induction n with
  | zero =>
    intro x y x' y' h1 h2 h3
    have : x = x' ∧ y = y' := by omega
    obtain ⟨rfl, rfl⟩ := this
    rw [h1] at h2; simp at h2
  | succ n ih =>
    intro x y x' y' h1 h2 h3
    have hl := at_lt h1
    have hl2 := at_lt h2
    -- the next pixel on the way
    obtain ⟨a, b, ha, hb, hd1, hd2⟩ : ∃ a b : Nat, a < m.nx ∧ b < m.ny ∧ ((x' : Int) - a).natAbs + ((y' : Int) - b).natAbs = 1 ∧
        ((x : Int) - a).natAbs + ((y : Int) - b).natAbs = n := by
      rcases Nat.lt_trichotomy x x' with hx | hx | hx
      · exact ⟨x' - 1, y', by omega, by omega, by omega, by omega⟩
      · rcases Nat.lt_trichotomy y y' with hy | hy | hy
        · exact ⟨x', y' - 1, by omega, by omega, by omega, by omega⟩
        · omega
        · exact ⟨x', y' + 1, by omega, by omega, by omega, by omega⟩
      · exact ⟨x' + 1, y', by omega, by omega, by omega, by omega⟩
    rcases at_bool hw ha hb with h | h
    · obtain ⟨c, d, hc, hd⟩ := ih x y a b h h2 hd2
      exact ⟨c, d, hc, by omega⟩
    · exact ⟨x', y', ⟨h1, a, b, h, hd1⟩, by omega⟩

/-- C66: `mask_inflate(m,d)` is true exactly at the pixels within Manhattan distance `d` of a true pixel of `m`. -/
theorem C66_inflate (m : Img Bool) (d : Nat) (hw : m.WF) :
    ∃ r, maskInflate m d = .ok r ∧ r.WF ∧ r.nx = m.nx ∧ r.ny = m.ny ∧
      ∀ x y, x < m.nx → y < m.ny → (r.at x y = some true ↔ Near m d x y) := by
  unfold maskInflate
  split
  · rename_i hd
    subst hd
    refine ⟨m, rfl, hw, rfl, rfl, fun x y _ _ => ?_⟩
    unfold Near
    constructor
    · intro h; exact ⟨x, y, h, by omega⟩
    · rintro ⟨x', y', h, h'⟩
      have : x = x' ∧ y = y' := by omega
      obtain ⟨rfl, rfl⟩ := this
      exact h
  · rename_i hd
    obtain ⟨ids, i1, i2⟩ := edges_spec hw
    rw [i1, Res.ok_bind]
    obtain ⟨r, r1, r2, r3, r4, r5⟩ := foldlM_mark m.nx m.ny (fun m id => (inflateKernel d).foldlM (fun m p =>
        let tx := ((id / m.ny : Nat) : Int) + p.1
        let ty := ((id % m.ny : Nat) : Int) + p.2
        if tx ≥ 0 ∧ tx < m.nx ∧ ty ≥ 0 ∧ ty < m.ny then m.put tx.toNat ty.toNat true else .ok m) m)
      (fun id x y => ∃ p ∈ inflateKernel d, (x : Int) = ((id / m.ny : Nat) : Int) + p.1 ∧ (y : Int) = ((id % m.ny : Nat) : Int) + p.2)
      (fun m' id hw' hx' hy' => by
        obtain ⟨r, r1, r2, r3, r4, r5⟩ := foldlM_mark m.nx m.ny (fun (m : Img Bool) (p : Int × Int) =>
            let tx := ((id / m.ny : Nat) : Int) + p.1
            let ty := ((id % m.ny : Nat) : Int) + p.2
            if tx ≥ 0 ∧ tx < m.nx ∧ ty ≥ 0 ∧ ty < m.ny then m.put tx.toNat ty.toNat true else .ok m)
          (fun p x y => (x : Int) = ((id / m.ny : Nat) : Int) + p.1 ∧ (y : Int) = ((id % m.ny : Nat) : Int) + p.2)
          (fun m'' p hw'' hx'' hy'' => by
            simp only
            rw [hx'', hy'']
            split
            · rename_i hin
              obtain ⟨w, w1, w2, w3, w4, w5⟩ := put_spec hw'' (x := (((id / m.ny : Nat) : Int) + p.1).toNat)
                (y := (((id % m.ny : Nat) : Int) + p.2).toNat) (by omega) (by omega) true
              refine ⟨w, w1, w2, by omega, by omega, fun x y hx hy => ?_⟩
              rw [w5]
              split
              · rename_i he
                simp only [true_iff]
                right; omega
              · rename_i he
                constructor
                · intro h; exact Or.inl h
                · rintro (h | h)
                  · exact h
                  · exact absurd ⟨by omega, by omega⟩ he
            · rename_i hout
              refine ⟨m'', rfl, hw'', hx'', hy'', fun x y hx hy => ?_⟩
              constructor
              · intro h; exact Or.inl h
              · rintro (h | h)
                · exact h
                · exact absurd (by omega) hout)
          (inflateKernel d) m' hw' hx' hy'
        exact ⟨r, r1, r2, r3, r4, r5⟩)
      ids m hw rfl rfl
    refine ⟨r, r1, r2, r3, r4, fun x y hx hy => ?_⟩
    rw [r5 x y hx hy]
    unfold Near
    constructor
    · rintro (h | ⟨id, hid, p, hp, h1, h2⟩)
      · exact ⟨x, y, h, by omega⟩
      · obtain ⟨a, b, he, rfl⟩ := (i2 id).1 hid
        have hl := at_lt he.1
        rw [mem_kernel] at hp
        have hda : (a * m.ny + b) / m.ny = a := by
          rw [Nat.mul_comm, Nat.mul_add_div (by omega), Nat.div_eq_of_lt hl.2]; omega
        have hma : (a * m.ny + b) % m.ny = b := by
          rw [Nat.mul_comm, Nat.mul_add_mod, Nat.mod_eq_of_lt hl.2]
        rw [hda] at h1
        rw [hma] at h2
        exact ⟨a, b, he.1, by omega⟩
    · rintro ⟨x', y', h, h'⟩
      rcases at_bool hw hx hy with ht | hf
      · exact Or.inl ht
      · right
        obtain ⟨a, b, he, hab⟩ := exists_edge hw _ x y x' y' h hf rfl
        have hl := at_lt he.1
        refine ⟨a * m.ny + b, (i2 _).2 ⟨a, b, he, rfl⟩, ((x : Int) - a, (y : Int) - b), ?_, ?_, ?_⟩
        · rw [mem_kernel]
          simp only
          refine ⟨?_, by omega⟩
          rcases Nat.eq_zero_or_pos (((x : Int) - a).natAbs + ((y : Int) - b).natAbs) with h0 | h0
          · have : x = a ∧ y = b := by omega
            obtain ⟨rfl, rfl⟩ := this
            have := he.1
            rw [hf] at this; simp at this
          · omega
        · have hda : (a * m.ny + b) / m.ny = a := by
            rw [Nat.mul_comm, Nat.mul_add_div (by omega), Nat.div_eq_of_lt hl.2]; omega
          rw [hda]; simp
        · have hma : (a * m.ny + b) % m.ny = b := by
            rw [Nat.mul_comm, Nat.mul_add_mod, Nat.mod_eq_of_lt hl.2]
          rw [hma]; simp

example : maskInflate ⟨3, 3, [false, false, false, false, true, false, false, false, false]⟩ 1 =
    .ok ⟨3, 3, [false, true, false, true, true, true, false, true, false]⟩ := by decide

end Verif.Astro
