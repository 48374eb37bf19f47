import Verif.Model.Hilbert
import Mathlib.Tactic.Ring

/-! # The Hilbert recursion and the contents of the lookup tables -/

namespace Verif

/-- Quadrant of digit `d` in orientation `o`: (i bit, j bit). -/
def quad (o d : Nat) : Nat × Nat :=
  let x := (posToIJ.getD o []).getD d 0
  (x / 2, x % 2)

/-- Orientation below digit `d`. -/
def ori (o d : Nat) : Nat := o ^^^ posToOrientation.getD d 0

/-- Coordinates and final orientation after `n` base-4 digits of `p`. -/
def ijOf : Nat → Nat → Nat → Nat × Nat × Nat
  | 0, o, _ => (0, 0, o)
  | n + 1, o, p =>
    let d := p / 4 ^ n
    let r := ijOf n (ori o d) (p % 4 ^ n)
    ((quad o d).1 * 2 ^ n + r.1, (quad o d).2 * 2 ^ n + r.2.1, r.2.2)

/-- Digit of a quadrant in orientation `o`. -/
def dig (o a b : Nat) : Nat := (ijToPos.getD o []).getD (2 * a + b) 0

/-- Position and final orientation from `n`-bit coordinates. -/
def posOf : Nat → Nat → Nat → Nat → Nat × Nat
  | 0, o, _, _ => (0, o)
  | n + 1, o, i, j =>
    let d := dig o (i / 2 ^ n) (j / 2 ^ n)
    let r := posOf n (ori o d) (i % 2 ^ n) (j % 2 ^ n)
    (d * 4 ^ n + r.1, r.2)

/-! ### Digit arithmetic -/

theorem pow4_pos (n : Nat) : 0 < 4 ^ n := Nat.pow_pos (by decide)
theorem pow2_pos (n : Nat) : 0 < 2 ^ n := Nat.pow_pos (by decide)

theorem top4 (y n : Nat) : y % 4 ^ (n + 1) / 4 ^ n = y / 4 ^ n % 4 := by
  rw [Nat.pow_succ, Nat.mod_mul_right_div_self]
theorem low4 (y n : Nat) : y % 4 ^ (n + 1) % 4 ^ n = y % 4 ^ n :=
  Nat.mod_mod_of_dvd _ (Nat.pow_dvd_pow 4 (Nat.le_succ n))
theorem up4 (y n : Nat) : y / 4 ^ (n + 1) = y / 4 ^ n / 4 := by
  rw [Nat.pow_succ, Nat.div_div_eq_div_mul]
theorem top2 (y n : Nat) : y % 2 ^ (n + 1) / 2 ^ n = y / 2 ^ n % 2 := by
  rw [Nat.pow_succ, Nat.mod_mul_right_div_self]
theorem low2 (y n : Nat) : y % 2 ^ (n + 1) % 2 ^ n = y % 2 ^ n :=
  Nat.mod_mod_of_dvd _ (Nat.pow_dvd_pow 2 (Nat.le_succ n))
theorem up2 (y n : Nat) : y / 2 ^ (n + 1) = y / 2 ^ n / 2 := by
  rw [Nat.pow_succ, Nat.div_div_eq_div_mul]

/-! ### The tables -/

/-- What a call of `init_lookup_cell` does to the table `ij`. -/
def IjSpec (rem i j orig pos orient : Nat) (t t' : List Nat) : Prop :=
  t'.length = t.length ∧ ∀ x, t'[x]? =
    if x % 4 = orig ∧ x / 4 / 4 ^ rem = pos then
      some (((i * 2 ^ rem + (ijOf rem orient (x / 4 % 4 ^ rem)).1) * 16 +
        (j * 2 ^ rem + (ijOf rem orient (x / 4 % 4 ^ rem)).2.1)) * 4 +
        (ijOf rem orient (x / 4 % 4 ^ rem)).2.2)
    else t[x]?

/-- What a call of `init_lookup_cell` does to the table `pos`. -/
def PosSpec (rem i j orig pos orient : Nat) (t t' : List Nat) : Prop :=
  t'.length = t.length ∧ ∀ x, t'[x]? =
    if x % 4 = orig ∧ x / 64 / 2 ^ rem = i ∧ x / 4 % 16 / 2 ^ rem = j then
      some ((pos * 4 ^ rem + (posOf rem orient (x / 64 % 2 ^ rem) (x / 4 % 16 % 2 ^ rem)).1) * 4 +
        (posOf rem orient (x / 64 % 2 ^ rem) (x / 4 % 16 % 2 ^ rem)).2)
    else t[x]?

theorem ijSpec_step {rem i j orig pos orient : Nat} {t t0 t1 t2 t3 : List Nat}
    (h0 : IjSpec rem (2 * i + (quad orient 0).1) (2 * j + (quad orient 0).2) orig (4 * pos) (ori orient 0) t t0)
    (h1 : IjSpec rem (2 * i + (quad orient 1).1) (2 * j + (quad orient 1).2) orig (4 * pos + 1) (ori orient 1) t0 t1)
    (h2 : IjSpec rem (2 * i + (quad orient 2).1) (2 * j + (quad orient 2).2) orig (4 * pos + 2) (ori orient 2) t1 t2)
    (h3 : IjSpec rem (2 * i + (quad orient 3).1) (2 * j + (quad orient 3).2) orig (4 * pos + 3) (ori orient 3) t2 t3) :
    IjSpec (rem + 1) i j orig pos orient t t3 := by
  refine ⟨by rw [h3.1, h2.1, h1.1, h0.1], fun x => ?_⟩
  rw [h3.2, h2.2, h1.2, h0.2, up4]
  simp only [ijOf, top4, low4]
  generalize x / 4 / 4 ^ rem = q
  generalize x / 4 % 4 ^ rem = y
  have e : ∀ a b : Nat, (2 * a + b) * 2 ^ rem = a * 2 ^ (rem + 1) + b * 2 ^ rem := by
    intro a b; rw [Nat.pow_succ]; ring
  simp only [e]
  by_cases hx : x % 4 = orig
  · by_cases hq : q / 4 = pos
    · rw [if_pos (show x % 4 = orig ∧ q / 4 = pos from ⟨hx, hq⟩)]
      have : q % 4 = 0 ∨ q % 4 = 1 ∨ q % 4 = 2 ∨ q % 4 = 3 := by omega
      rcases this with h | h | h | h
      · rw [if_neg (by omega), if_neg (by omega), if_neg (by omega), if_pos (by omega), h]
        simp only [Nat.add_assoc]
      · rw [if_neg (by omega), if_neg (by omega), if_pos (by omega), h]
        simp only [Nat.add_assoc]
      · rw [if_neg (by omega), if_pos (by omega), h]
        simp only [Nat.add_assoc]
      · rw [if_pos (by omega), h]
        simp only [Nat.add_assoc]
    · rw [if_neg (by omega), if_neg (by omega), if_neg (by omega), if_neg (by omega), if_neg (by omega)]
  · rw [if_neg (by omega), if_neg (by omega), if_neg (by omega), if_neg (by omega), if_neg (by omega)]

theorem quad_dig : ∀ o, o < 4 → ∀ a, a < 2 → ∀ b, b < 2 →
    quad o (dig o a b) = (a, b) ∧ dig o a b < 4 := by decide
theorem dig_quad : ∀ o, o < 4 → ∀ d, d < 4 →
    dig o (quad o d).1 (quad o d).2 = d ∧ (quad o d).1 < 2 ∧ (quad o d).2 < 2 ∧ ori o d < 4 := by decide

theorem posSpec_step {rem i j orig pos orient : Nat} {t t0 t1 t2 t3 : List Nat} (ho : orient < 4)
    (h0 : PosSpec rem (2 * i + (quad orient 0).1) (2 * j + (quad orient 0).2) orig (4 * pos) (ori orient 0) t t0)
    (h1 : PosSpec rem (2 * i + (quad orient 1).1) (2 * j + (quad orient 1).2) orig (4 * pos + 1) (ori orient 1) t0 t1)
    (h2 : PosSpec rem (2 * i + (quad orient 2).1) (2 * j + (quad orient 2).2) orig (4 * pos + 2) (ori orient 2) t1 t2)
    (h3 : PosSpec rem (2 * i + (quad orient 3).1) (2 * j + (quad orient 3).2) orig (4 * pos + 3) (ori orient 3) t2 t3) :
    PosSpec (rem + 1) i j orig pos orient t t3 := by
  refine ⟨by rw [h3.1, h2.1, h1.1, h0.1], fun x => ?_⟩
  rw [h3.2, h2.2, h1.2, h0.2, up2, up2]
  simp only [posOf, top2, low2]
  generalize x / 64 / 2 ^ rem = q
  generalize x / 4 % 16 / 2 ^ rem = r
  generalize x / 64 % 2 ^ rem = y
  generalize x / 4 % 16 % 2 ^ rem = z
  have e : ∀ a b : Nat, (4 * a + b) * 4 ^ rem = a * 4 ^ (rem + 1) + b * 4 ^ rem := by
    intro a b; rw [Nat.pow_succ]; ring
  have e0 : 4 * pos * 4 ^ rem = pos * 4 ^ (rem + 1) := by rw [Nat.pow_succ]; ring
  simp only [e, e0]
  have q0 := dig_quad orient ho 0 (by omega)
  have q1 := dig_quad orient ho 1 (by omega)
  have q2 := dig_quad orient ho 2 (by omega)
  have q3 := dig_quad orient ho 3 (by omega)
  by_cases hx : x % 4 = orig
  · by_cases hq : q / 2 = i ∧ r / 2 = j
    · rw [if_pos (show x % 4 = orig ∧ q / 2 = i ∧ r / 2 = j from ⟨hx, hq⟩)]
      obtain ⟨hq, hr⟩ := hq
      obtain ⟨hd1, hd2⟩ := quad_dig orient ho (q % 2) (by omega) (r % 2) (by omega)
      have hd3 := congrArg Prod.fst hd1
      have hd4 := congrArg Prod.snd hd1
      simp only at hd3 hd4
      have ne : ∀ d, d < 4 → d ≠ dig orient (q % 2) (r % 2) →
          ¬ (q = 2 * i + (quad orient d).1 ∧ r = 2 * j + (quad orient d).2) := by
        intro d hd hne ⟨h1, h2⟩
        apply hne
        have := dig_quad orient ho d hd
        rw [← this.1]
        congr 1 <;> omega
      have yes : q = 2 * i + (quad orient (dig orient (q % 2) (r % 2))).1 ∧
          r = 2 * j + (quad orient (dig orient (q % 2) (r % 2))).2 := by omega
      have : dig orient (q % 2) (r % 2) = 0 ∨ dig orient (q % 2) (r % 2) = 1 ∨
        dig orient (q % 2) (r % 2) = 2 ∨ dig orient (q % 2) (r % 2) = 3 := by omega
      rcases this with h | h | h | h <;> rw [h] at ne yes ⊢
      · rw [if_neg (fun hh => ne 3 (by omega) (by omega) hh.2), if_neg (fun hh => ne 2 (by omega) (by omega) hh.2),
          if_neg (fun hh => ne 1 (by omega) (by omega) hh.2), if_pos ⟨hx, yes⟩]
        simp
      · rw [if_neg (fun hh => ne 3 (by omega) (by omega) hh.2), if_neg (fun hh => ne 2 (by omega) (by omega) hh.2),
          if_pos ⟨hx, yes⟩]
        simp only [Nat.add_assoc]
      · rw [if_neg (fun hh => ne 3 (by omega) (by omega) hh.2), if_pos ⟨hx, yes⟩]
        simp only [Nat.add_assoc]
      · rw [if_pos ⟨hx, yes⟩]
        simp only [Nat.add_assoc]
    · have n : ∀ a b : Nat, a < 2 → b < 2 → ¬ (x % 4 = orig ∧ q = 2 * i + a ∧ r = 2 * j + b) := by omega
      rw [if_neg (n _ _ q3.2.1 q3.2.2.1), if_neg (n _ _ q2.2.1 q2.2.2.1), if_neg (n _ _ q1.2.1 q1.2.2.1),
        if_neg (n _ _ q0.2.1 q0.2.2.1), if_neg (fun h => hq h.2)]
  · rw [if_neg (by omega), if_neg (by omega), if_neg (by omega), if_neg (by omega), if_neg (by omega)]

theorem initLookupCell_spec : ∀ (rem i j orig pos orient : Nat) (t : Tables), rem ≤ 4 →
    t.ij.length = 1024 → t.pos.length = 1024 → orig < 4 → orient < 4 →
    i < 2 ^ (4 - rem) → j < 2 ^ (4 - rem) → pos < 4 ^ (4 - rem) →
    ∃ t', initLookupCell rem i j orig pos orient t = some t' ∧
      IjSpec rem i j orig pos orient t.ij t'.ij ∧ PosSpec rem i j orig pos orient t.pos t'.pos := by
  intro rem
  induction rem with
  | zero =>
    intro i j orig pos orient t _ hl1 hl2 h1 h2 h3 h4 h5
    have e4 : (i <<< lookupBits) = i * 16 := by rw [Nat.shiftLeft_eq]; rfl
    have e2 : ∀ a : Nat, a <<< 2 = a * 4 := fun a => by rw [Nat.shiftLeft_eq]
    simp only [Nat.sub_zero, show (2:Nat)^4 = 16 from rfl, show (4:Nat)^4 = 256 from rfl] at h3 h4 h5
    refine ⟨⟨t.pos.set ((i * 16 + j) * 4 + orig) (pos * 4 + orient),
      t.ij.set (pos * 4 + orig) ((i * 16 + j) * 4 + orient)⟩, ?_, ⟨by simp, ?_⟩, ⟨by simp, ?_⟩⟩
    · simp only [initLookupCell, setAt, e4, e2]
      rw [if_pos (by omega), if_pos (by omega)]; rfl
    · intro x
      simp only [List.getElem?_set, ijOf, Nat.pow_zero, Nat.div_one, Nat.mul_one, Nat.add_zero]
      by_cases hx : pos * 4 + orig = x
      · rw [if_pos hx, if_pos (by omega), if_pos (by omega)]
      · rw [if_neg hx, if_neg (by omega)]
    · intro x
      simp only [List.getElem?_set, posOf, Nat.pow_zero, Nat.div_one, Nat.mul_one, Nat.add_zero]
      by_cases hx : (i * 16 + j) * 4 + orig = x
      · rw [if_pos hx, if_pos (by omega), if_pos (by omega)]
      · rw [if_neg hx, if_neg (by omega)]
  | succ rem ih =>
    intro i j orig pos orient t hr hl1 hl2 h1 h2 h3 h4 h5
    have p2 : 2 ^ (4 - rem) = 2 * 2 ^ (4 - (rem + 1)) := by
      rw [← Nat.pow_succ']; congr 1; omega
    have p4 : 4 ^ (4 - rem) = 4 * 4 ^ (4 - (rem + 1)) := by
      rw [← Nat.pow_succ']; congr 1; omega
    have go : ∀ (d : Nat) (t : Tables), d < 4 → t.ij.length = 1024 → t.pos.length = 1024 →
        ∃ t', initLookupCell rem (2 * i + (quad orient d).1) (2 * j + (quad orient d).2) orig (4 * pos + d) (ori orient d) t = some t' ∧
        IjSpec rem (2 * i + (quad orient d).1) (2 * j + (quad orient d).2) orig (4 * pos + d) (ori orient d) t.ij t'.ij ∧
        PosSpec rem (2 * i + (quad orient d).1) (2 * j + (quad orient d).2) orig (4 * pos + d) (ori orient d) t.pos t'.pos := by
      intro d t hd hl1 hl2
      have := dig_quad orient h2 d hd
      exact ih _ _ _ _ _ t (by omega) hl1 hl2 h1 this.2.2.2 (by omega) (by omega) (by omega)
    obtain ⟨t0, e0, i0, q0⟩ := go 0 t (by omega) hl1 hl2
    obtain ⟨t1, e1, i1, q1⟩ := go 1 t0 (by omega) (by rw [i0.1, hl1]) (by rw [q0.1, hl2])
    obtain ⟨t2, e2, i2, q2⟩ := go 2 t1 (by omega) (by rw [i1.1, i0.1, hl1]) (by rw [q1.1, q0.1, hl2])
    obtain ⟨t3, e3, i3, q3⟩ := go 3 t2 (by omega) (by rw [i2.1, i1.1, i0.1, hl1]) (by rw [q2.1, q1.1, q0.1, hl2])
    refine ⟨t3, ?_, ijSpec_step i0 i1 i2 i3, posSpec_step h2 q0 q1 q2 q3⟩
    have s1 : ∀ a : Nat, a <<< 1 = 2 * a := fun a => by rw [Nat.shiftLeft_eq]; omega
    have s2 : ∀ a : Nat, a <<< 2 = 4 * a := fun a => by rw [Nat.shiftLeft_eq]; omega
    have ho : orient = 0 ∨ orient = 1 ∨ orient = 2 ∨ orient = 3 := by omega
    unfold initLookupCell
    rcases ho with rfl | rfl | rfl | rfl <;>
    · simp only [s1, s2]
      simp [posToIJ, posToOrientation, quad, ori, swapMask, invertMask] at e0 e1 e2 e3 ⊢
      simp only [e0, e1, e2, e3, Option.bind_some]

theorem mod_lt4 {x o : Nat} : x % 4 = o → o < 4 := by omega

theorem tables_spec : ∃ t, lookupTbl = some t ∧
    (∀ x, x < 1024 → t.pos[x]? = some ((posOf 4 (x % 4) (x / 64) (x / 4 % 16)).1 * 4 +
      (posOf 4 (x % 4) (x / 64) (x / 4 % 16)).2)) ∧
    (∀ x, x < 1024 → t.ij[x]? = some (((ijOf 4 (x % 4) (x / 4)).1 * 16 +
      (ijOf 4 (x % 4) (x / 4)).2.1) * 4 + (ijOf 4 (x % 4) (x / 4)).2.2)) ∧
    t.pos.length = 1024 ∧ t.ij.length = 1024 := by
  have go := fun o t h1 h2 h3 => initLookupCell_spec 4 0 0 o 0 o t (by omega) h1 h2 h3 h3 (by decide) (by decide) (by decide)
  obtain ⟨z, hz, z1, z2⟩ : ∃ z : Tables, (⟨List.replicate (1 <<< (2 * lookupBits + 2)) 0,
      List.replicate (1 <<< (2 * lookupBits + 2)) 0⟩ : Tables) = z ∧ z.ij.length = 1024 ∧ z.pos.length = 1024 :=
    ⟨_, rfl, List.length_replicate, List.length_replicate⟩
  obtain ⟨t0, e0, i0, q0⟩ := go 0 z z1 z2 (by omega)
  obtain ⟨t1, e1, i1, q1⟩ := go 1 t0 (by rw [i0.1, z1]) (by rw [q0.1, z2]) (by omega)
  obtain ⟨t2, e2, i2, q2⟩ := go 2 t1 (by rw [i1.1, i0.1, z1]) (by rw [q1.1, q0.1, z2]) (by omega)
  obtain ⟨t3, e3, i3, q3⟩ := go 3 t2 (by rw [i2.1, i1.1, i0.1, z1]) (by rw [q2.1, q1.1, q0.1, z2]) (by omega)
  refine ⟨t3, ?_, ?_, ?_, ?_, ?_⟩
  · unfold lookupTbl
    simp only [hz]
    show (initLookupCell 4 0 0 0 0 0 z).bind _ = _
    rw [e0, Option.bind_some]
    show (initLookupCell 4 0 0 1 0 1 t0).bind _ = _
    rw [e1, Option.bind_some]
    show (initLookupCell 4 0 0 2 0 2 t1).bind _ = _
    rw [e2, Option.bind_some]
    exact e3
  · intro x hx
    rw [q3.2, q2.2, q1.2, q0.2]
    simp only [show (2:Nat)^4 = 16 from rfl]
    have hm1 : x / 64 % 16 = x / 64 := by omega
    have hm2 : x / 4 % 16 % 16 = x / 4 % 16 := by omega
    rw [hm1, hm2]
    have : x % 4 = 0 ∨ x % 4 = 1 ∨ x % 4 = 2 ∨ x % 4 = 3 := by omega
    rcases this with h | h | h | h <;> rw [h]
    · rw [if_neg (by omega), if_neg (by omega), if_neg (by omega), if_pos (by omega)]; simp
    · rw [if_neg (by omega), if_neg (by omega), if_pos (by omega)]; simp
    · rw [if_neg (by omega), if_pos (by omega)]; simp
    · rw [if_pos (by omega)]; simp
  · intro x hx
    rw [i3.2, i2.2, i1.2, i0.2]
    simp only [show (4:Nat)^4 = 256 from rfl]
    have hm1 : x / 4 % 256 = x / 4 := by omega
    rw [hm1]
    have : x % 4 = 0 ∨ x % 4 = 1 ∨ x % 4 = 2 ∨ x % 4 = 3 := by omega
    rcases this with h | h | h | h <;> rw [h]
    · rw [if_neg (by omega), if_neg (by omega), if_neg (by omega), if_pos (by omega)]; simp
    · rw [if_neg (by omega), if_neg (by omega), if_pos (by omega)]; simp
    · rw [if_neg (by omega), if_pos (by omega)]; simp
    · rw [if_pos (by omega)]; simp
  · rw [q3.1, q2.1, q1.1, q0.1, z2]
  · rw [i3.1, i2.1, i1.1, i0.1, z1]

theorem lookupIJ_spec {p o : Nat} (hp : p < 256) (ho : o < 4) :
    lookupIJ (p * 4 + o) = some (((ijOf 4 o p).1 * 16 + (ijOf 4 o p).2.1) * 4 + (ijOf 4 o p).2.2) := by
  obtain ⟨t, ht, _, h, _⟩ := tables_spec
  unfold lookupIJ
  rw [ht, Option.bind_eq_bind, Option.bind_some, h _ (by omega), show (p * 4 + o) % 4 = o by omega, show (p * 4 + o) / 4 = p by omega]

theorem lookupPos_spec {i j o : Nat} (hi : i < 16) (hj : j < 16) (ho : o < 4) :
    lookupPos ((i * 16 + j) * 4 + o) = some ((posOf 4 o i j).1 * 4 + (posOf 4 o i j).2) := by
  obtain ⟨t, ht, h, _⟩ := tables_spec
  unfold lookupPos
  rw [ht, Option.bind_eq_bind, Option.bind_some, h _ (by omega), show ((i * 16 + j) * 4 + o) % 4 = o by omega,
    show ((i * 16 + j) * 4 + o) / 64 = i by omega, show ((i * 16 + j) * 4 + o) / 4 % 16 = j by omega]

end Verif
