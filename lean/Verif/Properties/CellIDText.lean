import Verif.Model.CellIDText
import Verif.Properties.CellID
import Verif.Proofs.Ranges

/-!
# Properties C13 (Debug text), C14 (tokens) and C69 (token order)
-/

namespace Verif
open Rust

/-! ## Specification of hexadecimal text -/

/-- The number a list of hexadecimal digits denotes. -/
def hexNum : List Char → Option Nat
  | s => s.foldl (fun acc c => do let a ← acc; let d ← hexVal c; some (16 * a + d)) (some 0)

/-- A text denotes the number `n`: digits, at least one, optionally after a `+`. -/
def HexText (s : List Char) (n : Nat) : Prop :=
  ∃ ds, ds ≠ [] ∧ (s = ds ∨ s = '+' :: ds) ∧ hexNum ds = some n

theorem hexVal_hexDigit : ∀ n, n < 16 → hexVal (hexDigit n) = some n := by decide

theorem hexDigit_inj : ∀ n, n < 16 → ∀ m, m < 16 → hexDigit n = hexDigit m → n = m := by decide

theorem hexDigit_utf8 : ∀ n, n < 16 → (hexDigit n).utf8Size = 1 := by decide

def hexFold (acc : Option Nat) (s : List Char) : Option Nat :=
  s.foldl (fun acc c => do let a ← acc; let d ← hexVal c; some (16 * a + d)) acc

theorem hexFold_none (s : List Char) : hexFold none s = none := by
  induction s with
  | nil => rfl
  | cons c s ih => exact ih

theorem hexFold_cons (a : Nat) (c : Char) (s : List Char) :
    hexFold (some a) (c :: s) = (match hexVal c with
      | none => none | some d => hexFold (some (16 * a + d)) s) := by
  show hexFold _ s = _
  rcases h : hexVal c with _ | d
  · simp only [Option.bind_eq_bind, Option.bind_some, Option.bind_none, h, hexFold_none]
  · simp only [Option.bind_eq_bind, Option.bind_some, h]

theorem hexFold_append (acc : Option Nat) (s t : List Char) :
    hexFold acc (s ++ t) = hexFold (hexFold acc s) t := by
  simp [hexFold]

theorem hexFold_le {a n : Nat} {s : List Char} (h : hexFold (some a) s = some n) : a ≤ n := by
  induction s generalizing a with
  | nil => exact (Option.some.inj h).le
  | cons c s ih =>
    rw [hexFold_cons] at h
    rcases hc : hexVal c with _ | d <;> rw [hc] at h
    · simp at h
    · have := ih h; omega

theorem hexVal_lt {c : Char} {d : Nat} (h : hexVal c = some d) : d < 16 := by
  unfold hexVal at h
  split at h
  · simp only [Option.some.injEq] at h; omega
  · split at h
    · simp only [Option.some.injEq] at h; omega
    · split at h
      · simp only [Option.some.injEq] at h; omega
      · simp at h

theorem hexVal_utf8 {c : Char} {d : Nat} (h : hexVal c = some d) : c.utf8Size = 1 := by
  have : c.toNat ≤ 127 := by
    unfold hexVal at h
    split at h
    · omega
    · split at h
      · omega
      · split at h
        · omega
        · simp at h
  have h2 : c.val ≤ 0x7f := by
    rw [UInt32.le_iff_toNat_le]; exact this
  simp [Char.utf8Size, h2]

theorem byteLen_of_hexFold {a n : Nat} {s : List Char} (h : hexFold (some a) s = some n) :
    byteLen s = s.length := by
  induction s generalizing a with
  | nil => rfl
  | cons c s ih =>
    rw [hexFold_cons] at h
    rcases hc : hexVal c with _ | d <;> rw [hc] at h
    · simp at h
    · have := ih h
      have hu := hexVal_utf8 hc
      simp only [byteLen, List.map_cons, List.sum_cons, List.length_cons] at *
      omega

theorem parseHex_spec (s : List Char) (a : U64) :
    parseHex a s = (match hexFold (some a.toNat) s with
      | none => none
      | some n => if n < 2 ^ 64 then some (BitVec.ofNat 64 n) else none) := by
  induction s generalizing a with
  | nil =>
    have := a.isLt
    simp only [parseHex, hexFold, List.foldl_nil]
    rw [if_pos this]; simp
  | cons c s ih =>
    rw [parseHex, hexFold_cons]
    rcases hc : hexVal c with _ | d
    · rfl
    have hd := hexVal_lt hc
    simp only [Option.bind_eq_bind, Option.bind_some]
    have h16 : (16#64).toNat = 16 := rfl
    have hdn : (BitVec.ofNat 64 d).toNat = d := Bits.ofNat_toNat_of_lt (by omega)
    by_cases hm : a.toNat * 16 < 2 ^ 64
    · have em : (a * 16#64).toNat = 16 * a.toNat := by
        rw [BitVec.toNat_mul, h16]; omega
      rw [mul, h16, if_pos hm, Option.bind_some, add, em, hdn]
      by_cases ha : 16 * a.toNat + d < 2 ^ 64
      · rw [if_pos ha, Option.bind_some, ih]
        have : (a * 16#64 + BitVec.ofNat 64 d).toNat = 16 * a.toNat + d := by
          rw [BitVec.toNat_add, em, hdn]; omega
        rw [this]
      · rw [if_neg ha, Option.bind_none]
        rcases hf : hexFold (some (16 * a.toNat + d)) s with _ | n
        · rfl
        · have := hexFold_le hf
          simp only
          rw [if_neg (by omega)]
    · rw [mul, h16, if_neg hm, Option.bind_none]
      rcases hf : hexFold (some (16 * a.toNat + d)) s with _ | n
      · rfl
      · have := hexFold_le hf
        simp only
        rw [if_neg (by omega)]

theorem hexVal_plus : hexVal '+' = none := by decide

theorem fromStrRadix16_spec (s : List Char) (v : U64) :
    fromStrRadix16 s = some v ↔ HexText s v.toNat := by
  have key : ∀ ds : List Char, parseHex 0#64 ds = some v ↔ hexNum ds = some v.toNat := by
    intro ds
    rw [parseHex_spec]
    show _ ↔ hexFold (some 0) ds = _
    have h0 : (0#64).toNat = 0 := rfl
    rw [h0]
    rcases hf : hexFold (some 0) ds with _ | n
    · simp
    · simp only [Option.some.injEq]
      have := v.isLt
      constructor
      · intro h
        split at h
        · rename_i hn
          simp only [Option.some.injEq] at h
          rw [← h, Bits.ofNat_toNat_of_lt hn]
        · simp at h
      · rintro rfl
        rw [if_pos this]; simp
  unfold HexText fromStrRadix16
  split
  · simp
  · simp only [reduceCtorEq, false_iff]
    rintro ⟨ds, h1, h2 | h2, h3⟩
    · subst h2; exact absurd h3 (by simp [hexNum, hexVal_plus])
    · simp at h2; exact h1 h2
  · rename_i rest hr
    rw [key]
    constructor
    · intro h; exact ⟨rest, by intro e; exact hr e, Or.inr rfl, h⟩
    · rintro ⟨ds, h1, h2 | h2, h3⟩
      · subst h2
        exfalso
        change hexFold (some 0) _ = _ at h3
        rw [hexFold_cons, hexVal_plus] at h3
        simp at h3
      · simp at h2; subst h2; exact h3
  · rename_i h1 h2 h3
    rw [key]
    constructor
    · intro h; exact ⟨s, h1, Or.inl rfl, h⟩
    · rintro ⟨ds, e1, e2 | e2, e3⟩
      · subst e2; exact e3
      · exact absurd e2 (h3 ds)

/-- C14: `from_token` never panics; it yields the number shifted to the left end if the text
is hexadecimal (up to 16 bytes, or longer with leading zeros) and fits, and `CellID(0)` for any other text. -/
theorem c14_fromToken (s : List Char) :
    (∃ c, CellID.fromToken s = some c) ∧
    (∀ n, n < 2 ^ 64 → HexText s n →
      ∃ c, CellID.fromToken s = some c ∧ c.id.toNat = n * 16 ^ (16 - s.length)) ∧
    ((¬ ∃ n, n < 2 ^ 64 ∧ HexText s n) → CellID.fromToken s = some ⟨0#64⟩) := by
  have main : ∀ v : U64, fromStrRadix16 s = some v →
      ∃ c, CellID.fromToken s = some c ∧ c.id.toNat = v.toNat * 16 ^ (16 - s.length) := by
    intro v hv
    have ht := (fromStrRadix16_spec s v).1 hv
    obtain ⟨ds, hne, hs, hn⟩ := ht
    have hb := byteLen_of_hexFold (a := 0) hn
    have hlt : v.toNat < 16 ^ ds.length := by
      have aux : ∀ (t : List Char) (a m : Nat), hexFold (some a) t = some m →
          m < (a + 1) * 16 ^ t.length := by
        intro t
        induction t with
        | nil => intro a m h; obtain rfl := Option.some.inj h; simp
        | cons c t ih =>
          intro a m h
          rw [hexFold_cons] at h
          rcases hc : hexVal c with _ | d <;> rw [hc] at h
          · simp at h
          · have h1 := ih _ _ h
            have h2 := hexVal_lt hc
            have h3 : (16 * a + d + 1) * 16 ^ t.length ≤ ((a + 1) * 16) * 16 ^ t.length :=
              Nat.mul_le_mul_right _ (by omega)
            rw [List.length_cons, Nat.pow_succ]
            calc m < _ := h1
              _ ≤ _ := h3
              _ = _ := by ring
      have := aux ds 0 _ hn
      simpa using this
    have hlen : byteLen s = s.length ∧ ds.length ≤ s.length ∧ 1 ≤ s.length := by
      have : ds.length ≠ 0 := by simpa using hne
      rcases hs with rfl | rfl
      · exact ⟨hb, le_refl _, by omega⟩
      · refine ⟨?_, by simp, by simp⟩
        have : ('+').utf8Size = 1 := by decide
        simp only [byteLen, List.map_cons, List.sum_cons, List.length_cons] at *
        omega
    obtain ⟨hl1, hl2, hl3⟩ := hlen
    unfold CellID.fromToken
    rw [hv]
    simp only [hl1]
    by_cases h16 : s.length < 16
    · rw [if_pos h16]
      refine ⟨⟨v <<< (4 * (16 - s.length))⟩, by rw [shl, if_pos (by omega)]; rfl, ?_⟩
      simp only [BitVec.toNat_shiftLeft, Nat.shiftLeft_eq]
      have e : (2 : Nat) ^ (4 * (16 - s.length)) = 16 ^ (16 - s.length) := by
        rw [Nat.pow_mul]
      rw [e, Nat.mod_eq_of_lt]
      have h1 : v.toNat * 16 ^ (16 - s.length) < 16 ^ ds.length * 16 ^ (16 - s.length) :=
        Nat.mul_lt_mul_of_pos_right hlt (by positivity)
      have h2 : (16 : Nat) ^ ds.length * 16 ^ (16 - s.length) ≤ 16 ^ 16 := by
        rw [← Nat.pow_add]; exact Nat.pow_le_pow_right (by omega) (by omega)
      have h3 : (16 : Nat) ^ 16 = 2 ^ 64 := by norm_num
      omega
    · rw [if_neg h16]
      refine ⟨⟨v⟩, rfl, ?_⟩
      rw [show 16 - s.length = 0 by omega]; simp
  refine ⟨?_, ?_, ?_⟩
  · rcases hv : fromStrRadix16 s with _ | v
    · exact ⟨⟨0#64⟩, by unfold CellID.fromToken; rw [hv]⟩
    · obtain ⟨c, hc, _⟩ := main v hv; exact ⟨c, hc⟩
  · intro n hn ht
    have e : (BitVec.ofNat 64 n).toNat = n := Bits.ofNat_toNat_of_lt hn
    have := main (BitVec.ofNat 64 n) ((fromStrRadix16_spec s _).2 (by rw [e]; exact ht))
    rwa [e] at this
  · intro hno
    rcases hv : fromStrRadix16 s with _ | v
    · unfold CellID.fromToken; rw [hv]
    · exact absurd ⟨v.toNat, v.isLt, (fromStrRadix16_spec s v).1 hv⟩ hno

theorem hexDigits_length (m n : Nat) : (hexDigits m n).length = m := by
  induction m generalizing n with
  | zero => rfl
  | succ m ih => simp [hexDigits, ih]

theorem hexDigits_mem {m n : Nat} {c : Char} (h : c ∈ hexDigits m n) : ∃ d, d < 16 ∧ c = hexDigit d := by
  induction m generalizing n with
  | zero => simp [hexDigits] at h
  | succ m ih =>
    simp only [hexDigits, List.mem_append, List.mem_singleton] at h
    rcases h with h | rfl
    · exact ih h
    · exact ⟨_, Nat.mod_lt _ (by omega), rfl⟩

theorem hexFold_hexDigits (m n a : Nat) (h : n < 16 ^ m) :
    hexFold (some a) (hexDigits m n) = some (a * 16 ^ m + n) := by
  induction m generalizing n with
  | zero => have : n = 0 := by simpa using h
            subst this; simp [hexDigits, hexFold]
  | succ m ih =>
    rw [hexDigits, hexFold_append, ih (n / 16) (by rw [Nat.pow_succ] at h; omega), hexFold_cons,
      hexVal_hexDigit _ (Nat.mod_lt _ (by omega))]
    simp only [hexFold, List.foldl_nil, Option.some.injEq]
    rw [Nat.pow_succ]
    have := Nat.div_add_mod n 16
    have : a * (16 ^ m * 16) = 16 * (a * 16 ^ m) := by ring
    omega

theorem trimZeros_spec (s : List Char) :
    ∃ k, s = trimZeros s ++ List.replicate k '0' ∧ (trimZeros s).getLast? ≠ some '0' := by
  refine ⟨(s.reverse.takeWhile (fun c => c == '0')).length, ?_, ?_⟩
  · have h := List.takeWhile_append_dropWhile (p := fun c => c == '0') (l := s.reverse)
    have h2 := congrArg List.reverse h
    rw [List.reverse_append, List.reverse_reverse] at h2
    have h3 : s.reverse.takeWhile (fun c => c == '0') =
        List.replicate (s.reverse.takeWhile (fun c => c == '0')).length '0' := by
      rw [List.eq_replicate_iff]
      refine ⟨rfl, fun b hb => ?_⟩
      simpa using (List.all_eq_true.1 List.all_takeWhile b hb)
    unfold trimZeros
    conv_lhs => rw [← h2, h3, List.reverse_replicate]
  · unfold trimZeros
    rw [List.getLast?_reverse]
    intro h
    have := List.head?_dropWhile_not (fun c : Char => c == '0') s.reverse
    rw [h] at this
    simp at this

theorem hexFold_zeros (a k : Nat) :
    hexFold (some a) (List.replicate k '0') = some (a * 16 ^ k) := by
  induction k generalizing a with
  | zero => simp [hexFold]
  | succ k ih =>
    rw [List.replicate_succ, hexFold_cons, show hexVal '0' = some 0 by decide]
    simp only
    rw [ih, Nat.pow_succ]; congr 1; ring

theorem toToken_facts (c : CellID) (h : c.id ≠ 0#64) :
    ∃ k v, hexDigits 16 c.id.toNat = c.toToken ++ List.replicate k '0' ∧
      c.toToken.length + k = 16 ∧ c.toToken ≠ [] ∧ c.toToken.getLast? ≠ some '0' ∧
      hexNum c.toToken = some v ∧ v * 16 ^ k = c.id.toNat := by
  have ht : c.toToken = trimZeros (hexDigits 16 c.id.toNat) := by
    unfold CellID.toToken; rw [if_neg h]
  obtain ⟨k, h1, h2⟩ := trimZeros_spec (hexDigits 16 c.id.toNat)
  rw [← ht] at h1 h2
  have hn : c.id.toNat < 16 ^ 16 := by have := c.id.isLt; norm_num; omega
  have hf := hexFold_hexDigits 16 c.id.toNat 0 hn
  have hlen := congrArg List.length h1
  rw [hexDigits_length, List.length_append, List.length_replicate] at hlen
  rw [h1, hexFold_append] at hf
  rcases hv : hexFold (some 0) c.toToken with _ | v
  · rw [hv, hexFold_none] at hf; simp at hf
  · rw [hv, hexFold_zeros] at hf
    simp only [Nat.zero_mul, Nat.zero_add, Option.some.injEq] at hf
    refine ⟨k, v, h1, by omega, ?_, h2, hv, hf⟩
    intro he
    rw [he] at hv
    obtain rfl := Option.some.inj hv
    rw [Nat.zero_mul] at hf
    exact h (BitVec.eq_of_toNat_eq hf.symm)

/-- C14: reading a token back gives the identifier, for every `u64`. -/
theorem c14_roundtrip (c : CellID) : CellID.fromToken c.toToken = some c := by
  by_cases h : c.id = 0#64
  · obtain ⟨x⟩ := c
    simp only at h
    subst h
    decide
  · obtain ⟨k, v, h1, h2, h3, h4, h5, h6⟩ := toToken_facts c h
    have hv : v < 2 ^ 64 := by
      have := c.id.isLt
      have h7 : 1 ≤ 16 ^ k := Nat.one_le_pow _ _ (by omega)
      have := Nat.mul_le_mul_left v h7
      omega
    obtain ⟨d, hd, he⟩ := (c14_fromToken c.toToken).2.1 v hv ⟨c.toToken, h3, Or.inl rfl, h5⟩
    rw [hd]
    congr 1
    obtain ⟨d⟩ := d
    obtain ⟨x⟩ := c
    congr 1
    apply BitVec.eq_of_toNat_eq
    simp only at he
    rw [he, show 16 - (CellID.mk x).toToken.length = k by omega]
    exact h6

example : CellID.toToken ⟨0x4476dc0000000000#64⟩ = "4476dc".toList := by decide +kernel
example : CellID.fromToken "4476dc".toList = some ⟨0x4476dc0000000000#64⟩ := by decide +kernel
example : CellID.fromToken "876b e99".toList = some ⟨0#64⟩ := by decide +kernel

/-- C14: distinct identifiers have distinct tokens. -/
theorem c14_injective {a b : CellID} (h : a.toToken = b.toToken) : a = b := by
  have ha := c14_roundtrip a
  have hb := c14_roundtrip b
  rw [h, hb] at ha
  exact (Option.some.inj ha).symm

/-- C14: the shape of a token. -/
theorem c14_shape (c : CellID) :
    1 ≤ c.toToken.length ∧ c.toToken.length ≤ 16 ∧
    (c.id = 0#64 → c.toToken = ['X']) ∧
    (c.id ≠ 0#64 → (∀ x ∈ c.toToken, x ∈ "0123456789abcdef".toList) ∧
      c.toToken.getLast? ≠ some '0') := by
  by_cases h : c.id = 0#64
  · have : c.toToken = ['X'] := by unfold CellID.toToken; rw [if_pos h]
    rw [this]
    exact ⟨by decide, by decide, fun _ => rfl, fun h' => absurd h h'⟩
  · obtain ⟨k, v, h1, h2, h3, h4, h5, h6⟩ := toToken_facts c h
    have h7 : c.toToken.length ≠ 0 := by simpa using h3
    refine ⟨by omega, by omega, fun h' => absurd h' h, fun _ => ⟨fun x hx => ?_, h4⟩⟩
    have : x ∈ hexDigits 16 c.id.toNat := by
      rw [h1]; exact List.mem_append_left _ hx
    obtain ⟨d, hd, rfl⟩ := hexDigits_mem this
    have : ∀ d, d < 16 → hexDigit d ∈ "0123456789abcdef".toList := by decide
    exact this d hd

/-- C14 (a divergence from "hex-encoded string"): a leading `+` is accepted and shifts the value by one digit
less. -/
theorem c14_plus_accepted : CellID.fromToken "+1".toList = some ⟨0x0100000000000000#64⟩ ∧
    CellID.fromToken "1".toList = some ⟨0x1000000000000000#64⟩ := by decide +kernel

/-! ## C69: token order is identifier order -/

theorem hexDigit_lt : ∀ n, n < 16 → ∀ m, m < 16 → (hexDigit n < hexDigit m ↔ n < m) := by decide

/-- Lexicographic comparison of texts, as `str` is compared in Rust (for ASCII text). -/
def lexLt : List Char → List Char → Prop
  | [], [] => False
  | [], _ :: _ => True
  | _ :: _, [] => False
  | a :: s, b :: t => a < b ∨ (a = b ∧ lexLt s t)

theorem lexLt_append_same (p s t : List Char) : lexLt (p ++ s) (p ++ t) ↔ lexLt s t := by
  induction p with
  | nil => rfl
  | cons c p ih => simp [lexLt, ih]

/-- On texts of equal length the comparison is not changed by extending both. -/
theorem lexLt_append_eqlen : ∀ (s t : List Char), s.length = t.length → ∀ a b : List Char,
    (lexLt (s ++ a) (t ++ b) ↔ lexLt s t ∨ (s = t ∧ lexLt a b)) := by
  intro s
  induction s with
  | nil => intro t ht a b; cases t with
    | nil => simp [lexLt]
    | cons => simp at ht
  | cons c s ih =>
    intro t ht a b
    cases t with
    | nil => simp at ht
    | cons d t =>
      simp only [List.length_cons, Nat.add_right_cancel_iff] at ht
      simp only [List.cons_append, lexLt, ih t ht a b, List.cons.injEq]
      tauto

theorem hexDigits_lt (m : Nat) : ∀ x y, x < 16 ^ m → y < 16 ^ m →
    (lexLt (hexDigits m x) (hexDigits m y) ↔ x < y) := by
  induction m with
  | zero => intro x y hx hy; simp at hx hy; subst hx; subst hy; simp [hexDigits, lexLt]
  | succ m ih =>
    intro x y hx hy
    rw [Nat.pow_succ] at hx hy
    rw [hexDigits, hexDigits, lexLt_append_eqlen _ _ (by rw [hexDigits_length, hexDigits_length]),
      ih _ _ (by omega) (by omega)]
    have hd := hexDigit_lt (x % 16) (by omega) (y % 16) (by omega)
    have h2 : lexLt [hexDigit (x % 16)] [hexDigit (y % 16)] ↔ x % 16 < y % 16 := by
      simp [lexLt, hd]
    rw [h2]
    have h3 : hexDigits m (x / 16) = hexDigits m (y / 16) ↔ x / 16 = y / 16 := by
      constructor
      · intro h
        have e1 := hexFold_hexDigits m (x / 16) 0 (by omega)
        have e2 := hexFold_hexDigits m (y / 16) 0 (by omega)
        rw [h, e2] at e1
        simpa using e1.symm
      · intro h; rw [h]
    rw [h3]
    omega

theorem lexLt_zeros_right (k : Nat) (s : List Char) : ¬ lexLt (List.replicate k '0') s →
    (∀ x ∈ s, ∃ d, d < 16 ∧ x = hexDigit d) → s.length ≤ k → ∀ x ∈ s, x = '0' := by
  induction k generalizing s with
  | zero => intro _ _ h x hx; cases s <;> simp_all
  | succ k ih =>
    intro h1 h2 h3
    cases s with
    | nil => simp
    | cons c s =>
      rw [List.replicate_succ] at h1
      simp only [lexLt, not_or, not_and] at h1
      obtain ⟨d, hd, rfl⟩ := h2 c (by simp)
      have h0 : hexDigit d = '0' := by
        have : ∀ d, d < 16 → ¬ '0' < hexDigit d → hexDigit d = '0' := by decide
        exact this d hd h1.1
      intro x hx
      rcases List.mem_cons.1 hx with rfl | hx
      · exact h0
      · exact ih s (h1.2 h0.symm) (fun y hy => h2 y (by simp [hy])) (by simp at h3; omega) x hx

theorem not_lexLt_zeros (l : Nat) : ∀ s : List Char, (∀ x ∈ s, ∃ d, d < 16 ∧ x = hexDigit d) →
    s.length = l → ¬ lexLt s (List.replicate l '0') := by
  induction l with
  | zero => intro s _ h; cases s <;> simp_all [lexLt]
  | succ l ih =>
    intro s h1 h2
    cases s with
    | nil => simp at h2
    | cons c s =>
      rw [List.replicate_succ]
      simp only [lexLt, not_or, not_and]
      obtain ⟨d, hd, rfl⟩ := h1 c (by simp)
      have : ∀ d, d < 16 → ¬ hexDigit d < '0' := by decide
      exact ⟨this d hd, fun _ => ih s (fun y hy => h1 y (by simp [hy])) (by simpa using h2)⟩

theorem zeros_digits (k : Nat) : ∀ x ∈ List.replicate k '0', ∃ d, d < 16 ∧ x = hexDigit d := by
  intro x hx
  exact ⟨0, by omega, by rw [(List.mem_replicate.1 hx).2]; decide⟩

/-- Comparison of texts without trailing zeros equals comparison after padding with zeros. -/
theorem lexLt_pad : ∀ (s t : List Char) (k l : Nat),
    (∀ x ∈ s, ∃ d, d < 16 ∧ x = hexDigit d) → (∀ x ∈ t, ∃ d, d < 16 ∧ x = hexDigit d) →
    s.getLast? ≠ some '0' → t.getLast? ≠ some '0' → s.length + k = t.length + l →
    (lexLt s t ↔ lexLt (s ++ List.replicate k '0') (t ++ List.replicate l '0')) := by
  intro s
  induction s with
  | nil =>
    intro t k l hs ht h1 h2 h3
    cases t with
    | nil =>
      have : k = l := by simpa using h3
      subst this
      simp only [List.nil_append]
      exact iff_of_false (by simp [lexLt]) (not_lexLt_zeros _ _ (zeros_digits _) (by simp))
    | cons c t =>
      refine iff_of_true (by simp [lexLt]) ?_
      by_contra hc
      rw [List.nil_append] at hc
      have := lexLt_zeros_right k _ hc (by
        intro x hx
        rcases List.mem_append.1 hx with hx | hx
        · exact ht x hx
        · exact zeros_digits _ x hx) (by simp at *; omega)
      apply h2
      rw [List.getLast?_eq_some_getLast (by simp)]
      congr 1
      exact this _ (List.mem_append_left _ (List.getLast_mem _))
  | cons c s ih =>
    intro t k l hs ht h1 h2 h3
    cases t with
    | nil =>
      refine iff_of_false (by simp [lexLt]) ?_
      rw [List.nil_append]
      refine not_lexLt_zeros _ _ ?_ (by simp at *; omega)
      intro x hx
      rcases List.mem_append.1 hx with hx | hx
      · exact hs x hx
      · exact zeros_digits _ x hx
    | cons d t =>
      have g : ∀ (a : Char) (r : List Char), (a :: r).getLast? ≠ some '0' → r.getLast? ≠ some '0' := by
        intro a r h
        cases r with
        | nil => simp
        | cons b r => rwa [List.getLast?_cons_cons] at h
      have := ih t k l (fun x hx => hs x (by simp [hx])) (fun x hx => ht x (by simp [hx])) (g _ _ h1) (g _ _ h2)
        (by simp at h3; omega)
      simp only [List.cons_append, lexLt, this]

/-- C69: for nonzero identifiers, comparing tokens as text is comparing identifiers. -/
theorem c69_token_order {a b : CellID} (ha : a.id ≠ 0#64) (hb : b.id ≠ 0#64) :
    lexLt a.toToken b.toToken ↔ a.id < b.id := by
  obtain ⟨k, _, h1, h2, h3, h4, _, _⟩ := toToken_facts a ha
  obtain ⟨l, _, e1, e2, e3, e4, _, _⟩ := toToken_facts b hb
  have da : ∀ x ∈ a.toToken, ∃ d, d < 16 ∧ x = hexDigit d := by
    intro x hx; exact hexDigits_mem (by rw [h1]; exact List.mem_append_left _ hx)
  have db : ∀ x ∈ b.toToken, ∃ d, d < 16 ∧ x = hexDigit d := by
    intro x hx; exact hexDigits_mem (by rw [e1]; exact List.mem_append_left _ hx)
  have h16 : (16 : Nat) ^ 16 = 2 ^ 64 := by norm_num
  rw [lexLt_pad _ _ k l da db h4 e4 (by omega), ← h1, ← e1,
    hexDigits_lt 16 _ _ (by rw [h16]; exact a.id.isLt) (by rw [h16]; exact b.id.isLt), BitVec.lt_def]

example : (CellID.mk 0x4476dc0000000000#64).id ≠ 0#64 ∧ (CellID.mk 0x5000000000000000#64).id ≠ 0#64 ∧
    (CellID.mk 0x4476dc0000000000#64).id < (CellID.mk 0x5000000000000000#64).id := by decide +kernel

/-! ## C13: the Debug text -/

theorem debugDigits_spec {c : CellID} {k : Nat} (h : Valid c) (hk : c.level = some k) :
    ∀ n l, l + n ≤ k → ∃ ds, c.debugDigits (l + 1) n = some ds ∧ ds.length = n ∧
      ∀ j, j < n → ∃ p : U64, c.childPosition (l + 1 + j) = some p ∧ p.toNat < 4 ∧
        ds[j]? = some (Nat.digitChar p.toNat) := by
  intro n
  induction n with
  | zero => intro l _; exact ⟨[], rfl, rfl, by omega⟩
  | succ n ih =>
    intro l hl
    obtain ⟨ds, h1, h2, h3⟩ := ih (l + 1) (by omega)
    obtain ⟨p, _, _, hp, hp4, _⟩ := c13_childPosition (l := l) h hk (by omega)
    refine ⟨Nat.digitChar p.toNat :: ds, ?_, by simp [h2], ?_⟩
    · rw [CellID.debugDigits, hp, Option.bind_eq_bind, Option.bind_some, h1]; rfl
    · intro j hj
      rcases j with _ | j
      · exact ⟨p, hp, hp4, rfl⟩
      · obtain ⟨q, hq, hq4, hd⟩ := h3 j (by omega)
        exact ⟨q, by rw [← hq]; congr 1; omega, hq4, by simpa using hd⟩

/-- C13: the Debug text of a valid cell: face, slash, one digit per level, each the child position. -/
theorem c13_debug_text {c : CellID} {k : Nat} (h : Valid c) (hk : c.level = some k) :
    ∃ ds, c.debug = some (Nat.digitChar c.face :: '/' :: ds) ∧ ds.length = k ∧
      ∀ l, 1 ≤ l → l ≤ k → ∃ p : U64, c.childPosition l = some p ∧ p.toNat < 4 ∧
        ds[l - 1]? = some (Nat.digitChar p.toNat) := by
  obtain ⟨ds, h1, h2, h3⟩ := debugDigits_spec h hk k 0 (by omega)
  refine ⟨ds, ?_, h2, ?_⟩
  · rw [CellID.debug, hk, Option.bind_eq_bind, Option.bind_some]
    rw [show (0 + 1) = 1 from rfl] at h1
    rw [h1]; rfl
  · intro l hl hl2
    obtain ⟨p, hp, hp4, hd⟩ := h3 (l - 1) (by omega)
    exact ⟨p, by rw [← hp]; congr 1; omega, hp4, hd⟩

/-- C13: the Debug text determines a valid cell. -/
theorem c13_debug_injective {a b : CellID} (ha : Valid a) (hb : Valid b) (h : a.debug = b.debug) :
    a = b := by
  have hka := ha.level
  have hkb := hb.level
  obtain ⟨ds, h1, h2, h3⟩ := c13_debug_text ha hka
  obtain ⟨es, e1, e2, e3⟩ := c13_debug_text hb hkb
  rw [h1, e1] at h
  simp only [Option.some.injEq, List.cons.injEq, true_and] at h
  obtain ⟨hf, rfl⟩ := h
  rw [← e2, h2] at hkb
  have hinj : ∀ x, x < 8 → ∀ y, y < 8 → Nat.digitChar x = Nat.digitChar y → x = y := by decide
  have face8 : ∀ c : CellID, c.face < 8 := by
    intro c
    rw [CellID.face, BitVec.toNat_ushiftRight, Nat.shiftRight_eq_div_pow]
    have := c.id.isLt
    unfold posBits maxLevel
    omega
  refine c13_positions_determine ha hb hka hkb (hinj _ (face8 a) _ (face8 b) hf) ?_
  intro l hl hl2
  obtain ⟨p, hp, hp4, hd⟩ := h3 l hl hl2
  obtain ⟨q, hq, hq4, he⟩ := e3 l hl (by omega)
  rw [hd] at he
  rw [hp, hq]
  congr 1
  exact BitVec.eq_of_toNat_eq (hinj _ (by omega) _ (by omega) (Option.some.inj he))

/-- C13 (documented use only on valid cells): the Debug text of `CellID(0)` is a panic, `level()` underflows. -/
theorem c13_debug_zero_panics : (CellID.mk 0#64).debug = none := by decide +kernel

example : (CellID.mk 0x6060734000000000#64).debug = some "3/00030003212".toList := by decide +kernel

end Verif
