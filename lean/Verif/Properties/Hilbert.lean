import Verif.Proofs.Curve

/-!
# Properties C18-C22: the Hilbert curve on the faces of the cube

`LeafAt`, `Square`, `cubePt`, `ShareEdge` come from `Verif/SpecCube.lean`. The lookup tables are not
assumed: they are computed by the model of `init_lookup_cell`.
-/

namespace Verif
open Rust Spec CellID

/-! ## C18 -/

/-- **C18.** `from_face_ij` gives a valid leaf and `face_ij_orientation` gives the arguments back. -/
theorem c18_ij_roundtrip {f i j : Nat} (hf : f < 6) (hi : i < 2 ^ 30) (hj : j < 2 ^ 30) :
    ∃ l, CellID.fromFaceIJ f i j = some l ∧ Valid l ∧ l.level = some 30 ∧ l.face = f ∧
      ∃ o, l.faceIJOrientation = some (f, (i : Int), (j : Int), o) := by
  rw [pow2_30] at hi hj
  have h := cellAt_facts hf (le_refl 30) hi hj
  have h2 : LeafAt (cellAt f 30 i j) f i j := by
    rw [leafAt_iff h.1 h.2.1]
    simp [h.2.2.1, h.2.2.2.1, h.2.2.2.2]
  exact ⟨_, fromFaceIJ_cellAt hf hi hj, h.1, by rw [h.1.level, h.2.1], by rw [h.1.face, h.2.2.1], h2⟩

/-- **C18.** The other direction: a leaf is the leaf of its coordinates. -/
theorem c18_leaf_roundtrip {l : CellID} (h : Valid l) (hl : l.level = some 30) :
    ∃ f i j o, l.faceIJOrientation = some (f, i, j, o) ∧ f = l.face ∧ f < 6 ∧ 0 ≤ i ∧ i < 2 ^ 30 ∧
      0 ≤ j ∧ j < 2 ^ 30 ∧ CellID.fromFaceIJ f i j = some l := by
  have hlv := lv_of_level hl
  have hb := h.sr_lt
  have hs := leaf_ss hlv
  have h0 : ∀ o, cOff (30 - lv l) o = 0 := by intro o; rw [hlv]; rfl
  have hij := h.faceIJ
  rw [h0, hs, Nat.mul_one, Nat.mul_one, Nat.add_zero, Nat.add_zero] at hij
  have hat := h.eq_cellAt (a := 0) (b := 0) (ss_pos l) (ss_pos l)
  rw [hs, hlv, Nat.mul_one, Nat.mul_one, Nat.add_zero, Nat.add_zero] at hat
  rw [hlv, pow2_30] at hb
  refine ⟨_, _, _, _, hij, h.face.symm, h.sf_lt, by omega, by omega, by omega, by omega, ?_⟩
  rw [fromFaceIJ_cellAt h.sf_lt hb.1 hb.2.1, ← hat]

/-- **C18.** Coordinates identify a leaf. -/
theorem c18_injective {f i j f' i' j' : Nat} (hf : f < 6) (hi : i < 2 ^ 30) (hj : j < 2 ^ 30)
    (hf' : f' < 6) (hi' : i' < 2 ^ 30) (hj' : j' < 2 ^ 30)
    (e : CellID.fromFaceIJ f i j = CellID.fromFaceIJ f' i' j') : f = f' ∧ i = i' ∧ j = j' := by
  obtain ⟨l, h1, _, _, _, o, h2⟩ := c18_ij_roundtrip hf hi hj
  obtain ⟨l', h1', _, _, _, o', h2'⟩ := c18_ij_roundtrip hf' hi' hj'
  rw [h1, h1'] at e
  obtain rfl := Option.some.inj e
  rw [h2] at h2'
  simp only [Option.some.injEq, Prod.mk.injEq] at h2'
  omega

example : ∃ l, CellID.fromFaceIJ 3 123456789 987654321 = some l ∧ l.face = 3 := by
  obtain ⟨l, h1, _, _, h2, _⟩ := c18_ij_roundtrip (f := 3) (i := 123456789) (j := 987654321)
    (by omega) (by omega) (by omega)
  exact ⟨l, h1, h2⟩

/-! ## C19 -/

/-- **C19.** The leaves of a valid cell are the leaves in a square of its face whose side is
`2^(30-level)` and whose corner is a multiple of the side. The coordinates which
`face_ij_orientation` reports for the cell itself lie in the square. -/
theorem c19_square {c : CellID} {k : Nat} (h : Valid c) (hk : c.level = some k) :
    ∃ i0 j0 i j : Int, ∃ o, Square c c.face i0 j0 (2 ^ (30 - k)) ∧ 2 ^ (30 - k) ∣ i0 ∧ 2 ^ (30 - k) ∣ j0 ∧
      c.faceIJOrientation = some (c.face, i, j, o) ∧
      i0 ≤ i ∧ i < i0 + 2 ^ (30 - k) ∧ j0 ≤ j ∧ j < j0 + 2 ^ (30 - k) := by
  have hlv := lv_of_level hk
  have hs : ((ss c : Nat) : Int) = 2 ^ (30 - k) := by rw [ss, hlv]; norm_cast
  have hsq := h.square
  have hij := h.faceIJ
  have hc := cOff_lt (30 - lv c) (sr c).2.2
  rw [← h.face] at hsq hij
  rw [← hs]
  refine ⟨_, _, _, _, _, hsq, ⟨(sr c).1, by push_cast; ring⟩, ⟨(sr c).2.1, by push_cast; ring⟩, hij, ?_, ?_, ?_, ?_⟩
  all_goals (unfold ss at *; omega)

/-- **C19.** The square of a cell is unique, and cells with the same square are equal. -/
theorem c19_square_unique {c d : CellID} {f g : Nat} {i j s i' j' s' : Int} (hc : Valid c) (hd : Valid d)
    (h : Square c f i j s) (h' : Square d g i' j' s') :
    c = d ↔ g = f ∧ i' = i ∧ j' = j ∧ s' = s := by
  constructor
  · rintro rfl; exact square_unique h h'
  · rintro ⟨rfl, rfl, rfl, rfl⟩
    have u1 := square_unique hc.square h
    have u2 := square_unique hd.square h'
    have p1 := ss_pos c
    have es : ss c = ss d := by omega
    have el : lv c = lv d := by
      have := Nat.pow_right_injective (le_refl 2) (show 2 ^ (30 - lv c) = 2 ^ (30 - lv d) from es)
      have := hc.lv_le
      have := hd.lv_le
      omega
    refine hc.eq_of_sr hd el (by omega) ?_ ?_
    · have : (sr c).1 * ss c = (sr d).1 * ss c := by
        conv_rhs => rw [es]
        omega
      exact Nat.eq_of_mul_eq_mul_right p1 this
    · have : (sr c).2.1 * ss c = (sr d).2.1 * ss c := by
        conv_rhs => rw [es]
        omega
      exact Nat.eq_of_mul_eq_mul_right p1 this

/-- **C19.** Every aligned square is the square of a valid cell. -/
theorem c19_every_square {f k : Nat} {a b : Nat} (hf : f < 6) (hk : k ≤ 30) (ha : a < 2 ^ k) (hb : b < 2 ^ k) :
    ∃ c, Valid c ∧ c.level = some k ∧
      Square c f (a * 2 ^ (30 - k)) (b * 2 ^ (30 - k)) (2 ^ (30 - k)) := by
  have hp : 2 ^ k * 2 ^ (30 - k) = 1073741824 := by
    rw [← Nat.pow_add, show k + (30 - k) = 30 by omega]
  have h2 := pow2_pos (30 - k)
  have m1 := Nat.mul_lt_mul_of_pos_right ha h2
  have m2 := Nat.mul_lt_mul_of_pos_right hb h2
  rw [hp] at m1 m2
  have h := cellAt_facts hf hk m1 m2
  refine ⟨_, h.1, by rw [h.1.level, h.2.1], ?_⟩
  have hs := h.1.square
  rw [h.2.2.1, h.2.2.2.1, h.2.2.2.2, Nat.mul_div_cancel _ h2, Nat.mul_div_cancel _ h2, ss, h.2.1] at hs
  push_cast at hs
  exact hs

example : (⟨0x7b37fda650000000#64⟩ : CellID).isValid = some true ∧
    (⟨0x7b37fda650000000#64⟩ : CellID).level = some 16 := by decide +kernel

/-! ## C20 -/

/-- The squares lie side by side: one coordinate differs by the side, the other not. -/
def SideBySide (i j i' j' s : Int) : Prop :=
  (i' = i ∧ (j' = j + s ∨ j' = j - s)) ∨ (j' = j ∧ (i' = i + s ∨ i' = i - s))

theorem nextWrap_valid {c : CellID} (h : Valid c) :
    c.nextWrap = some (mk (lv c) ((px c + 1) % (6 * 4 ^ lv c))) ∧ IsCell (lv c) ((px c + 1) % (6 * 4 ^ lv c)) := by
  refine ⟨?_, h.lv_le, Nat.mod_lt _ (by have := pow4_pos (lv c); omega)⟩
  conv_lhs => rw [h.eq, nextWrap_mk h.isCell]

theorem adj_sideBySide {i j i' j' s : Nat} (h : Adj i j i' j') :
    SideBySide (i * s : Nat) (j * s : Nat) (i' * s : Nat) (j' * s : Nat) s := by
  unfold Adj at h
  unfold SideBySide
  rcases h with ⟨rfl, rfl | rfl⟩ | ⟨rfl, rfl | rfl⟩ <;> push_cast <;> simp [add_mul]

/-- **C20.** Inside a face the square of the next cell lies beside the square of the cell, at every
level. For leaves (`side = 1`) the coordinates differ by one in one coordinate only. -/
theorem c20_curve_continuous {c d : CellID} (h : Valid c) (hd : c.nextWrap = some d) (hf : d.face = c.face)
    (hl : c.level ≠ some 0) :
    ∃ i j i' j' s : Int, Square c c.face i j s ∧ Square d c.face i' j' s ∧ SideBySide i j i' j' s := by
  obtain ⟨e, hc⟩ := nextWrap_valid h
  rw [hd] at e
  obtain rfl := Option.some.inj e
  have hvd := valid_mk hc
  rw [hvd.face, h.face] at hf
  have hlv : lv c ≠ 0 := by intro e; apply hl; rw [h.level, e]
  have hp := h.isCell.2
  have h4 := pow4_pos (lv c)
  have e1 : lv (mk (lv c) ((px c + 1) % (6 * 4 ^ lv c))) = lv c := lv_mk hc
  have e2 := px_mk hc
  have h41 : 1 < 4 ^ lv c := Nat.one_lt_pow hlv (by omega)
  have hlast : px c + 1 < 6 * 4 ^ lv c := by
    by_contra hh
    have e3 : px c + 1 = 6 * 4 ^ lv c := by omega
    have : sf c = 5 := by
      rw [sf, show px c = 5 * 4 ^ lv c + (4 ^ lv c - 1) by omega, add_div_pow (by omega)]
    have : sf (mk (lv c) ((px c + 1) % (6 * 4 ^ lv c))) = 0 := by
      rw [sf, e1, e2, e3, Nat.mod_self, Nat.zero_div]
    omega
  rw [Nat.mod_eq_of_lt hlast] at *
  have hadj := sr_next e1 e2 hf
  have s1 := h.square
  have s2 := hvd.square
  have es : ss (mk (lv c) (px c + 1)) = ss c := by rw [ss, ss, e1]
  rw [hf, es] at s2
  rw [h.face]
  exact ⟨_, _, _, _, _, s1, s2, adj_sideBySide hadj⟩

/-- **C20.** The same for leaves, on the coordinates reported by `face_ij_orientation`. -/
theorem c20_leaves {l m : CellID} {f : Nat} {i j i' j' : Int} (h : Valid l) (hl : l.level = some 30)
    (hm : l.nextWrap = some m) (h1 : LeafAt l f i j) (h2 : LeafAt m f i' j') :
    (i' = i ∧ (j' = j + 1 ∨ j' = j - 1)) ∨ (j' = j ∧ (i' = i + 1 ∨ i' = i - 1)) := by
  have hlv := lv_of_level hl
  obtain ⟨e, hc⟩ := nextWrap_valid h
  rw [hm] at e
  obtain rfl := Option.some.inj e
  have hvm := valid_mk hc
  have hlm := lv_mk hc
  rw [hlv] at hlm
  have a1 := (leafAt_iff h hlv).1 h1
  have a2 := (leafAt_iff hvm (by rw [hlv]; exact hlm)).1 h2
  obtain ⟨a, b, a', b', s, q1, q2, q3⟩ := c20_curve_continuous h hm
    (by rw [hvm.face, h.face, ← a1.1, ← a2.1]) (by rw [hl]; simp)
  have u1 := square_unique q1 h.square
  have u2 := square_unique q2 hvm.square
  rw [leaf_ss hlv] at u1
  rw [leaf_ss (by rw [hlv]; exact hlm)] at u2
  unfold SideBySide at q3
  obtain ⟨_, rfl, rfl⟩ := a1
  obtain ⟨_, rfl, rfl⟩ := a2
  rw [Nat.mul_one, Nat.mul_one] at *
  omega

example : (⟨0x7b37fda650000000#64⟩ : CellID).nextWrap = some ⟨0x7b37fda670000000#64⟩ ∧
    (⟨0x7b37fda670000000#64⟩ : CellID).face = 3 := by decide +kernel

/-! ## C21 -/

theorem cubePt_inj {f : Nat} {a b a' b' : Int} (h : cubePt f a b = cubePt f a' b') : a = a' ∧ b = b' := by
  unfold cubePt at h
  split at h <;> simp only [Pt.mk.injEq] at h <;> omega

theorem shareEdge_of {c d : CellID} {f g : Nat} {i j i' j' s : Int} (h : Square c f i j s) (h' : Square d g i' j' s)
    (a b a' b' x y x' y' : Int) (ha : a = i ∨ a = i + s) (hb : b = j ∨ b = j + s) (ha' : a' = i ∨ a' = i + s)
    (hb' : b' = j ∨ b' = j + s) (hx : x = i' ∨ x = i' + s) (hy : y = j' ∨ y = j' + s)
    (hx' : x' = i' ∨ x' = i' + s) (hy' : y' = j' ∨ y' = j' + s) (hne : a ≠ a' ∨ b ≠ b')
    (e1 : cubePt f a b = cubePt g x y) (e2 : cubePt f a' b' = cubePt g x' y') : ShareEdge c d := by
  refine ⟨cubePt f a b, cubePt f a' b', ?_, corner_of h a b ha hb, corner_of h a' b' ha' hb', ?_, ?_⟩
  · intro e
    have := cubePt_inj e
    omega
  · rw [e1]; exact corner_of h' x y hx hy
  · rw [e2]; exact corner_of h' x' y' hx' hy'

theorem shareEdge_sideBySide {c d : CellID} {f : Nat} {i j i' j' s : Int} (h : Square c f i j s)
    (h' : Square d f i' j' s) (hs : SideBySide i j i' j' s) : ShareEdge c d := by
  have hp := h.pos
  rcases hs with ⟨rfl, rfl | rfl⟩ | ⟨rfl, rfl | rfl⟩
  · exact shareEdge_of h h' i' (j + s) (i' + s) (j + s) i' (j + s) (i' + s) (j + s) (by omega) (by omega) (by omega)
      (by omega) (by omega) (by omega) (by omega) (by omega) (by omega) rfl rfl
  · exact shareEdge_of h h' i' j (i' + s) j i' j (i' + s) j (by omega) (by omega) (by omega)
      (by omega) (by omega) (by omega) (by omega) (by omega) (by omega) rfl rfl
  · exact shareEdge_of h h' (i + s) j' (i + s) (j' + s) (i + s) j' (i + s) (j' + s) (by omega) (by omega) (by omega)
      (by omega) (by omega) (by omega) (by omega) (by omega) (by omega) rfl rfl
  · exact shareEdge_of h h' i j' i (j' + s) i j' i (j' + s) (by omega) (by omega) (by omega)
      (by omega) (by omega) (by omega) (by omega) (by omega) (by omega) rfl rfl

/-- The end of a face and the beginning of the next. -/
theorem shareEdge_faces {c d : CellID} {f : Nat} {s : Int} (hf : f < 6)
    (h : Square c f (if f % 2 = 0 then side - s else 0) (if f % 2 = 0 then 0 else side - s) s)
    (h' : Square d ((f + 1) % 6) 0 0 s) : ShareEdge c d := by
  have hp := h.pos
  interval_cases f <;> simp only [Nat.reduceMod, Nat.reduceAdd, if_true, if_false, one_ne_zero] at h h'
  · exact shareEdge_of h h' side 0 side s 0 0 0 s (by omega) (by omega) (by omega) (by omega) (by omega) (by omega)
      (by omega) (by omega) (by omega) (by simp [cubePt, side]) (by simp [cubePt, side])
  · exact shareEdge_of h h' 0 side s side 0 0 s 0 (by omega) (by omega) (by omega) (by omega) (by omega) (by omega)
      (by omega) (by omega) (by omega) (by simp [cubePt, side]) (by simp [cubePt, side])
  · exact shareEdge_of h h' side 0 side s 0 0 0 s (by omega) (by omega) (by omega) (by omega) (by omega) (by omega)
      (by omega) (by omega) (by omega) (by simp [cubePt, side]) (by simp [cubePt, side])
  · exact shareEdge_of h h' 0 side s side 0 0 s 0 (by omega) (by omega) (by omega) (by omega) (by omega) (by omega)
      (by omega) (by omega) (by omega) (by simp [cubePt, side]) (by simp [cubePt, side])
  · exact shareEdge_of h h' side 0 side s 0 0 0 s (by omega) (by omega) (by omega) (by omega) (by omega) (by omega)
      (by omega) (by omega) (by omega) (by simp [cubePt, side]) (by simp [cubePt, side])
  · exact shareEdge_of h h' 0 side s side 0 0 s 0 (by omega) (by omega) (by omega) (by omega) (by omega) (by omega)
      (by omega) (by omega) (by omega) (by simp [cubePt, side]) (by simp [cubePt, side])

/-- **C21.** On the whole sphere, at every level: a cell and the next cell along the curve (cyclically)
share an edge. -/
theorem c21_closed_curve {c d : CellID} (h : Valid c) (hd : c.nextWrap = some d) : ShareEdge c d := by
  obtain ⟨e, hc⟩ := nextWrap_valid h
  have hvd := valid_mk hc
  have hp := h.isCell.2
  have h4 := pow4_pos (lv c)
  have e1 : lv (mk (lv c) ((px c + 1) % (6 * 4 ^ lv c))) = lv c := lv_mk hc
  have e2 := px_mk hc
  by_cases hlast : px c % 4 ^ lv c = 4 ^ lv c - 1
  · rw [hd] at e
    obtain rfl := Option.some.inj e
    have hdm := div_mod_face (px c) (lv c)
    have hsf : px c / 4 ^ lv c = sf c := rfl
    rw [hsf] at hdm
    have h6 := h.sf_lt
    have ep : (px c + 1) % (6 * 4 ^ lv c) = (sf c + 1) % 6 * 4 ^ lv c := by
      rw [show px c + 1 = (sf c + 1) * 4 ^ lv c by rw [Nat.add_mul]; omega]
      exact Nat.mul_mod_mul_right _ _ _
    have esf : sf (mk (lv c) ((px c + 1) % (6 * 4 ^ lv c))) = (sf c + 1) % 6 := by
      rw [sf, e1, e2, ep, Nat.mul_div_cancel _ h4]
    have efirst := sr_first (c := mk (lv c) ((px c + 1) % (6 * 4 ^ lv c)))
      (by rw [e1, e2, ep, Nat.mul_mod_left])
    have elast := sr_last hlast
    have s1 := h.square
    have s2 := hvd.square
    have es : ss (mk (lv c) ((px c + 1) % (6 * 4 ^ lv c))) = ss c := by rw [ss, ss, e1]
    rw [es, esf, efirst.1, efirst.2, Nat.zero_mul] at s2
    rw [elast.1, elast.2] at s1
    have hmul := h.ss_mul
    have hmm : (2 ^ lv c - 1) * ss c = 1073741824 - ss c := by
      rw [Nat.mul_comm, Nat.mul_sub_one, Nat.mul_comm, hmul]
    have hle : ss c ≤ 1073741824 := by
      rw [← hmul]; exact Nat.le_mul_of_pos_left _ (pow2_pos _)
    refine shareEdge_faces h6 (s := (ss c : Nat)) ?_ s2
    convert s1 using 1
    · split
      · rw [hmm]; unfold side; omega
      · simp
    · split
      · simp
      · rw [hmm]; unfold side; omega
  · have hl0 : lv c ≠ 0 := by
      intro e0; apply hlast; rw [e0, Nat.pow_zero, Nat.mod_one]
    have hdm := div_mod_face (px c) (lv c)
    have hm := Nat.mod_lt (px c) h4
    have hsf : px c / 4 ^ lv c = sf c := rfl
    rw [hsf] at hdm
    have h6 := h.sf_lt
    have hlt : px c % 4 ^ lv c + 1 < 4 ^ lv c := by omega
    have hf : (px c + 1) / 4 ^ lv c = sf c := by
      rw [hdm, Nat.add_assoc, add_div_pow hlt]
    have hnl : px c + 1 < 6 * 4 ^ lv c := by
      have := Nat.mul_le_mul_right (4 ^ lv c) (show sf c + 1 ≤ 6 by omega)
      rw [Nat.add_mul] at this
      omega
    rw [Nat.mod_eq_of_lt hnl] at *
    have hd' := hd
    rw [e] at hd
    obtain rfl := Option.some.inj hd
    obtain ⟨i, j, i', j', s, s1, s2, s3⟩ := c20_curve_continuous h hd'
      (by rw [hvd.face, h.face, sf, e1, e2, hf]) (by rw [h.level]; simp [hl0])
    exact shareEdge_sideBySide s1 s2 s3

-- the last leaf of face 5 and the first leaf of face 0
example : (⟨0xbfffffffffffffff#64⟩ : CellID).isValid = some true ∧
    (⟨0xbfffffffffffffff#64⟩ : CellID).nextWrap = some ⟨1#64⟩ := by decide +kernel

/-! ## C22 -/

theorem bit2_mk {k p : Nat} (h : IsCell k p) (hk : k < 30) :
    (mk k p).id.toNat / 4 % 2 = if 30 - k = 1 then 1 else 0 := by
  rw [toNat_mk h]
  obtain ⟨m, hm⟩ : ∃ m, 30 - k = m + 1 := ⟨29 - k, by omega⟩
  have hE : E k = 4 ^ m * 4 := by rw [E, hm, Nat.pow_succ]
  rw [hE, show 2 * (p * (4 ^ m * 4)) + 4 ^ m * 4 = (2 * (p * 4 ^ m) + 4 ^ m) * 4 by ring,
    Nat.mul_div_cancel _ (by omega), hm]
  rcases m with _ | m
  · simp
  · rw [if_neg (by omega), Nat.pow_succ]; omega

theorem cOff_parity {m o : Nat} (hm : m ≠ 0) :
    cOff m o % 2 = (if m = 1 then (if o < 2 then 1 else 0) else (if o < 2 then 0 else 1)) ∧
    cOff m o + (if o < 2 then 0 else 1) = 2 ^ (m - 1) := by
  obtain ⟨m, rfl⟩ := Nat.exists_eq_succ_of_ne_zero hm
  rw [cOff, if_neg (by omega), Nat.succ_eq_add_one, Nat.add_sub_cancel]
  have := pow2_pos m
  rcases m with _ | m
  · split <;> simp
  · have := pow2_pos m
    rw [if_neg (show ¬ (m + 1 + 1 = 1) by omega), Nat.pow_succ]
    split_ifs <;> omega

theorem lowbit32 (i : Int) (x : U64) :
    (((BitVec.ofInt 32 i) ^^^ ((x.setWidth 32).sshiftRight 2)) &&& 1#32 ≠ 0#32) ↔
      (i % 2 = 1 ↔ x.toNat / 4 % 2 = 0) := by
  have hb : ∀ y : BitVec 32, (y &&& 1#32 ≠ 0#32) ↔ y.getLsbD 0 = true := by
    intro y
    constructor
    · intro h
      by_contra h2
      apply h
      apply BitVec.eq_of_getLsbD_eq
      intro n hn
      rcases n with _ | n
      · simp_all
      · simp
    · intro h h2
      have := congrArg (fun z => z.getLsbD 0) h2
      rw [BitVec.getLsbD_and, h] at this
      simp at this
  rw [hb, BitVec.getLsbD_xor, BitVec.getLsbD_sshiftRight]
  have e1 : (BitVec.ofInt 32 i).getLsbD 0 = decide (i % 2 = 1) := by
    simp [BitVec.getLsbD, BitVec.toNat_ofInt, Nat.testBit_zero]
    omega
  have e2 : (x.setWidth 32).getLsbD 2 = decide (x.toNat / 4 % 2 = 1) := by
    rw [BitVec.getLsbD_setWidth]
    simp [BitVec.getLsbD, Nat.testBit, Nat.shiftRight_eq_div_pow]
    rfl
  rw [e1]
  simp only [show ¬ (32 ≤ 0) by omega, decide_false, Bool.not_false, Bool.true_and, Nat.add_zero,
    show (2:Nat) + 0 < 32 by omega, if_true, e2]
  by_cases a : i % 2 = 1 <;> by_cases b : x.toNat / 4 % 2 = 1 <;> simp [a, b]; omega

theorem lowbit64 (i : Int) (x : U64) :
    (((BitVec.ofInt 64 i) ^^^ (x.sshiftRight 2)) &&& 1#64 = 1#64) ↔
      (i % 2 = 1 ↔ x.toNat / 4 % 2 = 0) := by
  have hb : ∀ y : BitVec 64, (y &&& 1#64 = 1#64) ↔ y.getLsbD 0 = true := by
    intro y
    constructor
    · intro h
      have := congrArg (fun z => z.getLsbD 0) h
      simpa using this
    · intro h
      apply BitVec.eq_of_getLsbD_eq
      intro n hn
      rcases n with _ | n
      · simp_all
      · simp
  rw [hb, BitVec.getLsbD_xor, BitVec.getLsbD_sshiftRight]
  have e1 : (BitVec.ofInt 64 i).getLsbD 0 = decide (i % 2 = 1) := by
    simp [BitVec.getLsbD, BitVec.toNat_ofInt, Nat.testBit_zero]
    omega
  have e2 : x.getLsbD 2 = decide (x.toNat / 4 % 2 = 1) := by
    simp [BitVec.getLsbD, Nat.testBit, Nat.shiftRight_eq_div_pow]
    rfl
  rw [e1]
  simp only [show ¬ (64 ≤ 0) by omega, decide_false, Bool.not_false, Bool.true_and, Nat.add_zero,
    show (2:Nat) + 0 < 64 by omega, if_true, e2]
  by_cases a : i % 2 = 1 <;> by_cases b : x.toNat / 4 % 2 = 1 <;> simp [a, b]; omega

theorem delta_iff {P Q : Prop} [Decidable P] [Decidable Q] (h : P ↔ Q) (b : Bool) :
    (if b then (1 : Int) else if P then 2 else 0) = ((if b then 1 else if Q then 2 else 0 : Nat) : Int) := by
  by_cases hq : Q
  · rw [if_pos (h.2 hq), if_pos hq]; cases b <;> rfl
  · rw [if_neg (fun hp => hq (h.1 hp)), if_neg hq]; cases b <;> rfl

/-- The common part of `face_siti` and `center_face_siti`. -/
theorem siti_core {r : Option (Nat × Int × Int × Nat)} {D : Int → Int} {f o : Nat} {i j a b d x y : Int}
    (hr : r = some (f, i, j, o)) (hD : D i = d)
    (h1 : i32 (2 * i) = some a) (h2 : i32 (a + d) = some x) (h3 : i32 (2 * j) = some b) (h4 : i32 (b + d) = some y) :
    (do let (face, i, j, _) ← r
        let delta := D i
        let si ← i32 (2 * i)
        let si ← i32 (si + delta)
        let ti ← i32 (2 * j)
        let ti ← i32 (ti + delta)
        some (face, si, ti)) = some (f, x, y) := by
  subst hr
  simp only [Option.bind_eq_bind, Option.bind_some, hD, h1, h2, h3, h4]

theorem i32_twice {i d : Nat} (h : 2 * i + d < 2 ^ 31) :
    i32 (2 * (i : Int)) = some (2 * (i : Int)) ∧ i32 (2 * (i : Int) + (d : Int)) = some ((2 * i + d : Nat) : Int) := by
  constructor
  · exact i32_some (by omega) (by omega)
  · rw [i32_some (by omega) (by omega)]
    push_cast; rfl

/-- `face_siti` from the coordinates of the leaf. -/
theorem siti_of {c : CellID} {f i j o d : Nat} (hij : c.faceIJOrientation = some (f, (i : Int), (j : Int), o))
    (hi : 2 * i + d < 2 ^ 31) (hj : 2 * j + d < 2 ^ 31)
    (hd : d = if c.isLeaf then 1 else if ((i : Int) % 2 = 1 ↔ c.id.toNat / 4 % 2 = 0) then 2 else 0) :
    c.faceSiTi = some (f, ((2 * i + d : Nat) : Int), ((2 * j + d : Nat) : Int)) ∧
    c.centerFaceSiTi = some (f, ((2 * i + d : Nat) : Int), ((2 * j + d : Nat) : Int)) := by
  constructor
  · unfold faceSiTi
    refine siti_core (D := fun i => if c.isLeaf then 1
      else if ((BitVec.ofInt 32 i) ^^^ ((c.id.setWidth 32).sshiftRight 2)) &&& 1#32 ≠ 0#32 then 2
      else 0) hij (d := d) ?_ (i32_twice hi).1 (i32_twice hi).2 (i32_twice hj).1 (i32_twice hj).2
    rw [hd]; exact delta_iff (lowbit32 i c.id) _
  · unfold centerFaceSiTi
    refine siti_core (D := fun i => if c.isLeaf then 1
      else if ((BitVec.ofInt 64 i) ^^^ (c.id.sshiftRight 2)) &&& 1#64 = 1#64 then 2
      else 0) hij (d := d) ?_ (i32_twice hi).1 (i32_twice hi).2 (i32_twice hj).1 (i32_twice hj).2
    rw [hd]; exact delta_iff (lowbit64 i c.id) _

theorem centre_offset {c : CellID} (h : Valid c) :
    ∃ d, d = (if c.isLeaf then 1 else if (((((sr c).1 * ss c + cOff (30 - lv c) (sr c).2.2 : Nat) : Int)) % 2 = 1 ↔ c.id.toNat / 4 % 2 = 0) then 2 else 0) ∧
      2 * cOff (30 - lv c) (sr c).2.2 + d = ss c := by
  have hlf : c.isLeaf = decide (lv c = 30) := by conv_lhs => rw [h.eq, isLeaf_mk h.isCell]
  refine ⟨_, rfl, ?_⟩
  rw [hlf]
  by_cases hl : lv c = 30
  · simp only [hl, decide_true, if_true, ss, Nat.sub_self, cOff, Nat.pow_zero]
  · have hlt : lv c < 30 := by have := h.lv_le; omega
    have hbit : c.id.toNat / 4 % 2 = if 30 - lv c = 1 then 1 else 0 := by
      conv_lhs => rw [h.eq, bit2_mk h.isCell hlt]
    obtain ⟨hpar, hoff⟩ := cOff_parity (m := 30 - lv c) (o := (sr c).2.2) (by omega)
    have hss : ss c = 2 * 2 ^ (30 - lv c - 1) := by
      rw [ss, ← Nat.pow_succ', show (30 - lv c - 1).succ = 30 - lv c by omega]
    have hev : ((sr c).1 * ss c) % 2 = 0 := by
      rw [hss, Nat.mul_left_comm, Nat.mul_mod_right]
    have hcond : ((((sr c).1 * ss c + cOff (30 - lv c) (sr c).2.2 : Nat) : Int) % 2 = 1 ↔ c.id.toNat / 4 % 2 = 0) ↔
        ¬ (sr c).2.2 < 2 := by
      rw [hbit]
      generalize cOff (30 - lv c) (sr c).2.2 = w at *
      generalize (sr c).1 * ss c = z at *
      generalize (sr c).2.2 = y at *
      have hz : ((z + w : Nat) : Int) % 2 = 1 ↔ w % 2 = 1 := by omega
      rw [hz, hpar]
      split_ifs <;> simp <;> omega
    simp only [hl, decide_false, Bool.false_eq_true, if_false, hcond]
    rw [hss, ← hoff]
    split_ifs <;> omega

theorem Valid.centre {c : CellID} (h : Valid c) :
    c.faceSiTi = some (sf c, ((2 * ((sr c).1 * ss c) + ss c : Nat) : Int), ((2 * ((sr c).2.1 * ss c) + ss c : Nat) : Int)) ∧
    c.centerFaceSiTi = some (sf c, ((2 * ((sr c).1 * ss c) + ss c : Nat) : Int), ((2 * ((sr c).2.1 * ss c) + ss c : Nat) : Int)) := by
  have hb := h.sr_bound
  obtain ⟨d, hd, hs⟩ := centre_offset h
  have hp := ss_pos c
  have := siti_of h.faceIJ (by omega) (by omega) hd
  rw [show 2 * ((sr c).1 * ss c + cOff (30 - lv c) (sr c).2.2) + d = 2 * ((sr c).1 * ss c) + ss c by omega,
    show 2 * ((sr c).2.1 * ss c + cOff (30 - lv c) (sr c).2.2) + d = 2 * ((sr c).2.1 * ss c) + ss c by omega] at this
  exact this

/-- **C22.** `center_face_siti` and `face_siti` are the centre of the cell's square in units of half a
leaf, and the coordinates are strictly inside the face. -/
theorem c22_centre {c : CellID} {f : Nat} {i0 j0 s : Int} (h : Valid c) (hs : Square c f i0 j0 s) :
    c.faceSiTi = some (f, 2 * i0 + s, 2 * j0 + s) ∧ c.centerFaceSiTi = some (f, 2 * i0 + s, 2 * j0 + s) ∧
      1 ≤ 2 * i0 + s ∧ 2 * i0 + s ≤ 2 ^ 31 - 1 ∧ 1 ≤ 2 * j0 + s ∧ 2 * j0 + s ≤ 2 ^ 31 - 1 := by
  obtain ⟨h1, h2⟩ := h.centre
  obtain ⟨rfl, rfl, rfl, rfl⟩ := square_unique hs h.square
  have hb := h.sr_bound
  have := ss_pos c
  push_cast at h1 h2
  push_cast
  rw [← Nat.cast_mul, ← Nat.cast_mul] at *
  exact ⟨h1, h2, by omega, by omega, by omega, by omega⟩

example : ∃ i j, (⟨0x7b37fda650000000#64⟩ : CellID).faceSiTi = some (3, 2 * i + 2 ^ 14, 2 * j + 2 ^ 14) := by
  have h : Valid ⟨0x7b37fda650000000#64⟩ := show CellID.isValid _ = _ by decide +kernel
  have hk : (⟨0x7b37fda650000000#64⟩ : CellID).level = some 16 := by decide +kernel
  have hf : (⟨0x7b37fda650000000#64⟩ : CellID).face = 3 := by decide +kernel
  obtain ⟨i0, j0, _, _, _, hs, _⟩ := c19_square h hk
  rw [hf] at hs
  exact ⟨i0, j0, (c22_centre h hs).1⟩


end Verif
