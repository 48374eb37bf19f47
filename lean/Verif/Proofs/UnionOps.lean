import Verif.Proofs.UnionSearch

/-! Helper lemmas: intersection, difference and range constructors of cell unions. -/

namespace Verif
open Rust Spec CellUnion

/-- Leaves covered by the elements from an index on. -/
def CovFrom (v : List CellID) (i q : Nat) : Prop :=
  ∃ (m : Nat) (a : CellID), i ≤ m ∧ v[m]? = some a ∧ lo a ≤ q ∧ q < hi a

theorem covFrom_zero {v : List CellID} {q : Nat} : CovFrom v 0 q ↔ Cov v q := by
  constructor
  · rintro ⟨m, a, _, e, h⟩; exact ⟨a, mem_of_get e, h⟩
  · rintro ⟨a, ha, h⟩
    obtain ⟨m, e⟩ := mem_iff_get.1 ha
    exact ⟨m, a, Nat.zero_le _, e, h⟩

theorem covFrom_step {v : List CellID} {i q : Nat} {a : CellID} (e : v[i]? = some a) :
    CovFrom v i q ↔ (lo a ≤ q ∧ q < hi a) ∨ CovFrom v (i + 1) q := by
  constructor
  · rintro ⟨m, b, hm, eb, h⟩
    rcases Nat.eq_or_lt_of_le hm with g | g
    · subst g; rw [e] at eb; cases eb; exact Or.inl h
    · exact Or.inr ⟨m, b, g, eb, h⟩
  · rintro (h | ⟨m, b, hm, eb, h⟩)
    · exact ⟨i, a, Nat.le_refl _, e, h⟩
    · exact ⟨m, b, by omega, eb, h⟩

theorem covFrom_ge {v : List CellID} (ha : Asc v) {i q : Nat} {a : CellID} (e : v[i]? = some a)
    (h : CovFrom v (i + 1) q) : hi a ≤ q := by
  obtain ⟨m, b, hm, eb, h1, h2⟩ := h
  have := ha.get (show i < m by omega) e eb
  omega

/-- The jump of the intersection loop over cells that lie before `x`. -/
theorem jump_spec {v : List CellID} (hv : ∀ c ∈ v, Valid c) (ha : Asc v) {x yj : CellID}
    (hx : Valid x) {j : Nat} (ej : v[j]? = some yj) (hlt : lo yj < lo x)
    (hdis : ¬ (lo x + hi x ≤ 2 * hi yj - 1)) :
    ∃ (j' : Nat) (yp : CellID), lowerBound v (j + 1) v.length (mk 30 (lo x)) = some j' ∧
      natSub j' 1 = some (j' - 1) ∧ v[j' - 1]? = some yp ∧ Valid yp ∧
      ∀ jn, jn = (if lo x + hi x ≤ 2 * hi yp - 1 then j' - 1 else j') →
        j < jn ∧ jn ≤ v.length ∧
        ∀ (m : Nat) a, j ≤ m → m < jn → v[m]? = some a → hi a ≤ lo x := by
  have hj := lt_of_get ej
  have hxl := lo_lt_hi x
  obtain ⟨j', e, g1, g2, g3, g4⟩ := lowerBound_spec v (mk 30 (lo x)) _ (j + 1) v.length rfl
    (by omega) (Nat.le_refl _)
  obtain ⟨yp, eyp⟩ := get_of_lt (show j' - 1 < v.length by omega)
  have vyp := hv yp (mem_of_get eyp)
  have hyl := lo_lt_hi yp
  -- every passed cell starts before `x`
  have start : ∀ (m : Nat) a, j ≤ m → m < j' → v[m]? = some a → lo a < lo x := by
    intro m a h1 h2 ea
    have hal := lo_lt_hi a
    rcases Nat.eq_or_lt_of_le h1 with g | g
    · subst g; rw [ej] at ea; cases ea; exact hlt
    · have := g3 m a g h2 ea
      rw [hx.toNat_lo, (hv a (mem_of_get ea)).toNat] at this
      omega
  have sp := start (j' - 1) yp (by omega) (by omega) eyp
  refine ⟨j', yp, e, natSub_some (by omega), eyp, vyp, ?_⟩
  rintro jn rfl
  split
  · rename_i hc
    refine ⟨?_, by omega, ?_⟩
    · rcases Nat.eq_or_lt_of_le (show j ≤ j' - 1 by omega) with g | g
      · exfalso
        rw [← g, ej] at eyp; cases eyp
        exact hdis hc
      · exact g
    · intro m a h1 h2 ea
      have := ha.get h2 ea eyp
      omega
  · rename_i hc
    refine ⟨by omega, g2, ?_⟩
    intro m a h1 h2 ea
    rcases Nat.eq_or_lt_of_le (show m ≤ j' - 1 by omega) with g | g
    · subst g; rw [eyp] at ea; cases ea
      rcases vyp.lam hx with l | l | l | l <;> omega
    · have := ha.get g ea eyp
      omega

theorem covFrom_jump {v : List CellID} {j jn : Nat} {s q : Nat} (hjn : j ≤ jn)
    (h : ∀ (m : Nat) a, j ≤ m → m < jn → v[m]? = some a → hi a ≤ s) (hq : s ≤ q) :
    CovFrom v j q ↔ CovFrom v jn q := by
  constructor
  · rintro ⟨m, a, hm, ea, h1, h2⟩
    rcases Nat.lt_or_ge m jn with g | g
    · have := h m a hm g ea; omega
    · exact ⟨m, a, g, ea, h1, h2⟩
  · rintro ⟨m, a, hm, ea, h1⟩
    exact ⟨m, a, by omega, ea, h1⟩

theorem covFrom_lo {v : List CellID} (ha : Asc v) {i q : Nat} {a : CellID} (e : v[i]? = some a)
    (h : CovFrom v i q) : lo a ≤ q := by
  rw [covFrom_step e] at h
  rcases h with h | h
  · exact h.1
  · have := covFrom_ge ha e h
    have := lo_lt_hi a
    omega

/-- What the intersection loop returns. -/
def InterOut (x y : List CellID) (i j : Nat) (out : List CellID) : Prop :=
  (∀ c ∈ out, Valid c) ∧ Asc out ∧ (∀ q, Cov out q ↔ CovFrom x i q ∧ CovFrom y j q) ∧
    ∀ c ∈ out, c ∈ x ∨ c ∈ y

theorem interOut_cons {x y : List CellID} {i j i' j' : Nat} {c : CellID} {rest : List CellID}
    (vc : Valid c) (hm : c ∈ x ∨ c ∈ y) (hr : InterOut x y i' j' rest)
    (hge : ∀ q, CovFrom x i' q ∧ CovFrom y j' q → hi c ≤ q)
    (hcov : ∀ q, CovFrom x i q ∧ CovFrom y j q ↔
      (lo c ≤ q ∧ q < hi c) ∨ (CovFrom x i' q ∧ CovFrom y j' q)) :
    InterOut x y i j (c :: rest) := by
  obtain ⟨h1, h2, h3, h4⟩ := hr
  refine ⟨?_, ?_, ?_, ?_⟩
  · intro d hd
    rcases List.mem_cons.1 hd with rfl | hd
    · exact vc
    · exact h1 d hd
  · refine List.pairwise_cons.2 ⟨?_, h2⟩
    intro d hd
    have := lo_lt_hi d
    exact hge _ ((h3 (lo d)).1 ⟨d, hd, Nat.le_refl _, this⟩)
  · intro q
    rw [cov_cons, h3 q, hcov q]
  · intro d hd
    rcases List.mem_cons.1 hd with rfl | hd
    · exact hm
    · exact h4 d hd

theorem intersectionLoop_spec {x y : List CellID} (hvx : ∀ c ∈ x, Valid c) (hax : Asc x)
    (hvy : ∀ c ∈ y, Valid c) (hay : Asc y) : ∀ (n i j : Nat),
    n = (x.length - i) + (y.length - j) →
    ∃ out, intersectionLoop x y i j = some out ∧ InterOut x y i j out := by
  intro n
  induction n using Nat.strongRecOn with
  | _ n ih =>
    intro i j hn
    rw [intersectionLoop]
    by_cases hb : i < x.length ∧ j < y.length
    swap
    · rw [if_neg hb]
      refine ⟨[], rfl, by simp, List.Pairwise.nil, ?_, by simp⟩
      intro q
      simp only [Cov, List.not_mem_nil, false_and, exists_false, false_iff]
      rintro ⟨⟨m, a, h1, ea, _⟩, ⟨m', a', h1', ea', _⟩⟩
      have := lt_of_get ea
      have := lt_of_get ea'
      omega
    · rw [if_pos hb]
      obtain ⟨xi, ex⟩ := get_of_lt hb.1
      obtain ⟨yj, ey⟩ := get_of_lt hb.2
      have vx := hvx xi (mem_of_get ex)
      have vy := hvy yj (mem_of_get ey)
      have hxl := lo_lt_hi xi
      have hyl := lo_lt_hi yj
      have lx : ∀ q, CovFrom x i q → lo xi ≤ q := fun q h => covFrom_lo hax ex h
      have ly : ∀ q, CovFrom y j q → lo yj ≤ q := fun q h => covFrom_lo hay ey h
      have sx : ∀ q, CovFrom x i q ↔ (lo xi ≤ q ∧ q < hi xi) ∨ CovFrom x (i + 1) q :=
        fun q => covFrom_step ex
      have sy : ∀ q, CovFrom y j q ↔ (lo yj ≤ q ∧ q < hi yj) ∨ CovFrom y (j + 1) q :=
        fun q => covFrom_step ey
      have gx : ∀ q, CovFrom x (i + 1) q → hi xi ≤ q := fun q h => covFrom_ge hax ex h
      have gy : ∀ q, CovFrom y (j + 1) q → hi yj ≤ q := fun q h => covFrom_ge hay ey h
      -- pushing `xi` (inside `yj`) or `yj` (inside `xi`)
      have pushX : (lo yj ≤ lo xi ∧ hi xi ≤ hi yj) → ∃ out,
          (do let rest ← intersectionLoop x y (i + 1) j
              some (xi :: rest)) = some out ∧ InterOut x y i j out := by
        intro hin
        obtain ⟨rest, e, hr⟩ := ih _ (by omega) (i + 1) j rfl
        refine ⟨xi :: rest, by simp [e], interOut_cons vx (Or.inl (mem_of_get ex)) hr ?_ ?_⟩
        · intro q h; exact gx q h.1
        · intro q
          rw [sx]
          constructor
          · rintro ⟨h1 | h1, h2⟩
            · exact Or.inl h1
            · exact Or.inr ⟨h1, h2⟩
          · rintro (h | h)
            · exact ⟨Or.inl h, (sy q).2 (Or.inl (by omega))⟩
            · exact ⟨Or.inr h.1, h.2⟩
      have pushY : (lo xi ≤ lo yj ∧ hi yj ≤ hi xi) → ∃ out,
          (do let rest ← intersectionLoop x y i (j + 1)
              some (yj :: rest)) = some out ∧ InterOut x y i j out := by
        intro hin
        obtain ⟨rest, e, hr⟩ := ih _ (by omega) i (j + 1) rfl
        refine ⟨yj :: rest, by simp [e], interOut_cons vy (Or.inr (mem_of_get ey)) hr ?_ ?_⟩
        · intro q h; exact gy q h.2
        · intro q
          rw [sy]
          constructor
          · rintro ⟨h1, h2 | h2⟩
            · exact Or.inl h2
            · exact Or.inr ⟨h1, h2⟩
          · rintro (h | h)
            · exact ⟨(sx q).2 (Or.inl (by omega)), Or.inl h⟩
            · exact ⟨h.1, Or.inr h.2⟩
      simp only [ex, ey, vx.rangeMin, vy.rangeMin, vx.rangeMax, vy.rangeMax, Option.bind_eq_bind,
        Option.bind_some, id_lt_iff, id_le_iff, vx.toNat_lo, vy.toNat_lo, vx.toNat_hi, vy.toNat_hi,
        vx.toNat, vy.toNat]
      simp only [Option.bind_eq_bind] at pushX pushY
      by_cases c1 : 2 * lo yj + 1 < 2 * lo xi + 1
      · rw [if_pos c1]
        by_cases c2 : lo xi + hi xi ≤ 2 * hi yj - 1
        · rw [if_pos c2]
          apply pushX
          rcases vx.lam vy with l | l | l | l <;> omega
        · rw [if_neg c2]
          obtain ⟨j', yp, e1, e2, e3, vyp, hj⟩ := jump_spec hvy hay vx ey (by omega) c2
          obtain ⟨k1, k2, k3⟩ := hj _ rfl
          simp only [e1, e2, e3, vyp.rangeMax, Option.bind_some, vyp.toNat_hi]
          generalize (if lo xi + hi xi ≤ 2 * hi yp - 1 then j' - 1 else j') = jn at *
          obtain ⟨out, e, r1, r2, r3, r4⟩ := ih _ (by omega) i jn rfl
          refine ⟨out, e, r1, r2, ?_, r4⟩
          intro q
          rw [r3]
          constructor
          · rintro ⟨h1, h2⟩
            exact ⟨h1, (covFrom_jump (by omega) k3 (lx q h1)).2 h2⟩
          · rintro ⟨h1, h2⟩
            exact ⟨h1, (covFrom_jump (by omega) k3 (lx q h1)).1 h2⟩
      · rw [if_neg c1]
        by_cases c1' : 2 * lo xi + 1 < 2 * lo yj + 1
        · rw [if_pos c1']
          by_cases c2 : lo yj + hi yj ≤ 2 * hi xi - 1
          · rw [if_pos c2]
            apply pushY
            rcases vx.lam vy with l | l | l | l <;> omega
          · rw [if_neg c2]
            obtain ⟨i', xp, e1, e2, e3, vxp, hi'⟩ := jump_spec hvx hax vy ex (by omega) c2
            obtain ⟨k1, k2, k3⟩ := hi' _ rfl
            simp only [e1, e2, e3, vxp.rangeMax, Option.bind_some, vxp.toNat_hi]
            generalize (if lo yj + hi yj ≤ 2 * hi xp - 1 then i' - 1 else i') = jn at *
            obtain ⟨out, e, r1, r2, r3, r4⟩ := ih _ (by omega) jn j rfl
            refine ⟨out, e, r1, r2, ?_, r4⟩
            intro q
            rw [r3]
            constructor
            · rintro ⟨h1, h2⟩
              exact ⟨(covFrom_jump (by omega) k3 (ly q h2)).2 h1, h2⟩
            · rintro ⟨h1, h2⟩
              exact ⟨(covFrom_jump (by omega) k3 (ly q h2)).1 h1, h2⟩
        · rw [if_neg c1']
          by_cases c3 : lo xi + hi xi < lo yj + hi yj
          · rw [if_pos c3]
            exact pushX (by omega)
          · rw [if_neg c3]
            exact pushY (by omega)

theorem intersection_spec {x y : List CellID} (hx : IsUnion x) (hy : IsUnion y) :
    ∃ out, intersection x y = some out ∧ IsUnion out ∧
      (∀ q, Covers out q ↔ Covers x q ∧ Covers y q) ∧ (Normal x → Normal y → Normal out) := by
  rw [isUnion_iff] at hx hy
  obtain ⟨hvx, hax⟩ := hx
  obtain ⟨hvy, hay⟩ := hy
  obtain ⟨out, e, h1, h2, h3, h4⟩ := intersectionLoop_spec hvx hax hvy hay _ 0 0 rfl
  have hcov : ∀ q, Covers out q ↔ Covers x q ∧ Covers y q := by
    intro q
    rw [cov_iff h1, cov_iff hvx, cov_iff hvy, h3, covFrom_zero, covFrom_zero]
  have hn : Normal x → Normal y → Normal out := by
    intro nx ny
    rw [normal_iff] at nx ny ⊢
    refine ⟨h1, h2, ?_⟩
    intro z vz hl hk
    have zc : ∀ q, lo z ≤ q → q < hi z → Covers out q := by
      intro q a b
      obtain ⟨i, hi4, g⟩ := (covers_kids vz hl q).1 ⟨a, b⟩
      rw [cov_iff h1]
      exact ⟨_, hk i hi4, g⟩
    obtain ⟨a, ha, a1, a2⟩ := exists_super' hvx nx.2.2 vz (fun q g1 g2 => ((hcov q).1 (zc q g1 g2)).1)
    obtain ⟨b, hb, b1, b2⟩ := exists_super' hvy ny.2.2 vz (fun q g1 g2 => ((hcov q).1 (zc q g1 g2)).2)
    have l0 := lo_kid vz hl (show 0 < 4 by decide)
    have u0 := hi_kid vz hl (show 0 < 4 by decide)
    have e4 := hi_eq4 hl
    have hE := E_pos (lv z + 1)
    rcases h4 _ (hk 0 (by decide)) with g | g
    · have := hax.eq_of_overlap g ha (by omega) (by omega)
      rw [← this] at a2; omega
    · have := hay.eq_of_overlap g hb (by omega) (by omega)
      rw [← this] at b2; omega
  refine ⟨out, ?_, (isUnion_iff out).2 ⟨h1, h2⟩, hcov, hn⟩
  have ea : assertNormalized out [x, y] = some () := by
    apply assertNormalized_ok h1
    · intro z hz
      simp at hz
      rcases hz with rfl | rfl
      · exact hvx
      · exact hvy
    · intro h
      exact hn (h x (by simp)) (h y (by simp))
  simp only [intersection, hax.isSorted hvx, hay.isSorted hvy, h2.isSorted h1, Rust.assert, if_true,
    Option.bind_eq_bind, Option.bind_some, e, ea]

/-! ### Intersection with one cell -/

theorem takeUpTo_spec {h : CellID} : ∀ {v : List CellID}, (v.Pairwise fun a b => a.id.toNat ≤ b.id.toNat) →
    (takeUpTo h v).Sublist v ∧ ∀ c, c ∈ takeUpTo h v ↔ c ∈ v ∧ c.id.toNat ≤ h.id.toNat := by
  intro v
  induction v with
  | nil => intro _; simp [takeUpTo]
  | cons a rest ih =>
    intro hp
    have hp1 := List.pairwise_cons.1 hp
    obtain ⟨i1, i2⟩ := ih hp1.2
    rw [takeUpTo]
    by_cases ha : a.id ≤ h.id
    · rw [if_pos ha]
      refine ⟨i1.cons_cons a, ?_⟩
      intro c
      rw [List.mem_cons, List.mem_cons, i2]
      rw [id_le_iff] at ha
      constructor
      · rintro (rfl | h)
        · exact ⟨Or.inl rfl, ha⟩
        · exact ⟨Or.inr h.1, h.2⟩
      · rintro ⟨rfl | h, h2⟩
        · exact Or.inl rfl
        · exact Or.inr ⟨h, h2⟩
    · rw [if_neg ha]
      refine ⟨List.nil_sublist _, ?_⟩
      intro c
      rw [id_le_iff] at ha
      simp only [List.not_mem_nil, List.mem_cons, false_iff]
      rintro ⟨rfl | h, h2⟩
      · exact ha h2
      · have := hp1.1 c h; omega

theorem normal_singleton {c : CellID} (vc : Valid c) : Normal [c] := by
  rw [normal_iff]
  refine ⟨by simpa using vc, by simp [Asc], ?_⟩
  intro z vz hl hk
  have h0 : kid z 0 = c := by simpa using hk 0 (by decide)
  have h1 : kid z 1 = c := by simpa using hk 1 (by decide)
  have := (kid_inj vz hl vz hl (by decide) (by decide) (h0.trans h1.symm)).2
  omega

theorem intersectionWithCellID_spec {x : List CellID} (hx : IsUnion x) {c : CellID} (vc : Valid c) :
    ∃ out, intersectionWithCellID x c = some out ∧ IsUnion out ∧
      (∀ q, Covers out q ↔ Covers x q ∧ Covers [c] q) ∧ (Normal x → Normal out) := by
  have hx' := hx
  rw [isUnion_iff] at hx
  obtain ⟨hvx, hax⟩ := hx
  have nc := normal_singleton vc
  have hvc : ∀ d ∈ [c], Valid d := by simpa using vc
  have hcl := lo_lt_hi c
  have vc' : c.isValid = some true := vc
  obtain ⟨b, eb, pb⟩ := containsCellID_spec hvx hax vc
  cases b with
  | true =>
    obtain ⟨a, ha, a1, a2⟩ := pb.1 rfl
    have ea : assertNormalized [c] [x] = some () := by
      apply assertNormalized_ok hvc
      · intro z hz; simp at hz; subst hz; exact hvx
      · intro _; exact nc
    refine ⟨[c], ?_, nc.1, ?_, fun _ => nc⟩
    · simp only [intersectionWithCellID, vc', Rust.assert, if_true, Option.bind_eq_bind,
        Option.bind_some, eb, ea]
    · intro q
      rw [cov_iff hvc, cov_iff hvx]
      constructor
      · intro h
        refine ⟨?_, h⟩
        obtain ⟨d, hd, g⟩ := h
        simp at hd; subst hd
        exact ⟨a, ha, by omega, by omega⟩
      · intro h; exact h.2
  | false =>
    have hno : ∀ a ∈ x, ¬ (lo a ≤ lo c ∧ hi c ≤ hi a) := by
      intro a ha h
      have := pb.2 ⟨a, ha, h⟩
      cases this
    obtain ⟨st, est, g1, g2, g3, g4⟩ := lowerBound_spec x (mk 30 (lo c)) _ 0 x.length rfl (by omega)
      (Nat.le_refl _)
    have psort : (x.drop st).Pairwise fun a b => a.id.toNat ≤ b.id.toNat := by
      have := (isSorted_iff x).1 (hax.isSorted hvx)
      exact (this.imp (by intro a b h; rwa [id_le_iff] at h)).sublist (List.drop_sublist _ _)
    obtain ⟨t1, t2⟩ := takeUpTo_spec (h := mk 30 (hi c - 1)) psort
    have tsub : (takeUpTo (mk 30 (hi c - 1)) (x.drop st)).Sublist x :=
      t1.trans (List.drop_sublist _ _)
    -- exactly the elements inside `c`
    have hmem : ∀ a, a ∈ takeUpTo (mk 30 (hi c - 1)) (x.drop st) ↔ a ∈ x ∧ lo c ≤ lo a ∧ hi a ≤ hi c := by
      intro a
      rw [t2, vc.toNat_hi]
      constructor
      · rintro ⟨hd, hle⟩
        have hax' : a ∈ x := List.mem_of_mem_drop hd
        have va := hvx a hax'
        have hal := lo_lt_hi a
        rw [va.toNat] at hle
        obtain ⟨m, em⟩ := mem_iff_get.1 hd
        rw [List.getElem?_drop] at em
        have hst : st < x.length := by have := lt_of_get em; omega
        obtain ⟨s, es⟩ := get_of_lt hst
        have h0 := g4 s hst es
        have vs := hvx s (mem_of_get es)
        rw [vc.toNat_lo, vs.toNat] at h0
        have hsa : lo s + hi s ≤ lo a + hi a := by
          rcases Nat.eq_zero_or_pos m with g | g
          · subst g; rw [Nat.add_zero, es] at em; cases em; omega
          · have := hax.get (show st < st + m by omega) es em
            have := lo_lt_hi s
            omega
        refine ⟨hax', ?_⟩
        have n := hno a hax'
        rcases va.lam vc with l | l | l | l <;> omega
      · rintro ⟨ha, h1, h2⟩
        have va := hvx a ha
        have hal := lo_lt_hi a
        refine ⟨?_, by rw [va.toNat]; omega⟩
        obtain ⟨m, em⟩ := mem_iff_get.1 ha
        have hm : st ≤ m := by
          by_contra g
          have := g3 m a (by omega) (by omega) em
          rw [va.toNat, vc.toNat_lo] at this
          omega
        apply List.mem_of_getElem? (i := m - st)
        rw [List.getElem?_drop]
        rw [show st + (m - st) = m by omega]; exact em
    have hrun : intersectionWithCellID x c =
        (assertNormalized (takeUpTo (mk 30 (hi c - 1)) (x.drop st)) [x]).bind fun _ =>
          some (takeUpTo (mk 30 (hi c - 1)) (x.drop st)) := by
      simp only [intersectionWithCellID, vc', Rust.assert, if_true, Option.bind_eq_bind,
        Option.bind_some, eb, vc.rangeMax, vc.rangeMin, est, Bool.false_eq_true, if_false]
    generalize takeUpTo (mk 30 (hi c - 1)) (x.drop st) = out at *
    have hvo : ∀ d ∈ out, Valid d := fun d hd => hvx d ((hmem d).1 hd).1
    have hao : Asc out := hax.sublist tsub
    have hno' : Normal x → Normal out := by
      intro nx
      rw [normal_iff] at nx ⊢
      exact ⟨hvo, hao, nx.2.2.mono fun d hd => ((hmem d).1 hd).1⟩
    refine ⟨out, ?_, (isUnion_iff out).2 ⟨hvo, hao⟩, ?_, hno'⟩
    · have ea : assertNormalized out [x] = some () := by
        apply assertNormalized_ok hvo
        · intro z hz; simp at hz; subst hz; exact hvx
        · intro h; exact hno' (h x (by simp))
      rw [hrun, ea, Option.bind_some]
    · intro q
      rw [cov_iff hvo, cov_iff hvx, cov_iff hvc]
      constructor
      · rintro ⟨d, hd, g⟩
        have := (hmem d).1 hd
        exact ⟨⟨d, this.1, g⟩, c, by simp, by omega⟩
      · rintro ⟨⟨d, hd, g⟩, c', hc', g'⟩
        simp at hc'; subst hc'
        refine ⟨d, (hmem d).2 ⟨hd, ?_⟩, g⟩
        have n := hno d hd
        rcases (hvx d hd).lam vc with l | l | l | l <;> omega

/-! ### Difference -/

theorem next_kid {c : CellID} (hc : Valid c) (hl : lv c < 30) {i : Nat} (h : i < 4) :
    (kid c i).next = some (mk (lv c + 1) (4 * px c + i + 1)) :=
  next_raw (child_isCell hc.isCell hl h)

theorem childBegin_kid {c : CellID} (hc : Valid c) (hl : lv c < 30) :
    c.childBegin = some (kid c 0) := by
  conv_lhs => rw [hc.eq]
  rw [childBegin_mk hc.isCell hl]; rfl

/-- What the recursive difference of one cell returns. -/
def DiffOut (y : List CellID) (c : CellID) (out : List CellID) : Prop :=
  (∀ d ∈ out, Valid d ∧ lo c ≤ lo d ∧ hi d ≤ hi c) ∧ Asc out ∧
    (∀ q, Cov out q ↔ (lo c ≤ q ∧ q < hi c) ∧ ¬ Cov y q) ∧
    ∀ d ∈ out, ∀ z, Valid z → lo c ≤ lo z → hi z ≤ hi c → lo z ≤ lo d → hi d ≤ hi z → z ≠ d →
      ∃ q, lo z ≤ q ∧ q < hi z ∧ Cov y q

theorem asc_append {u v : List CellID} (hu : Asc u) (hv : Asc v) {m : Nat}
    (h1 : ∀ c ∈ u, hi c ≤ m) (h2 : ∀ c ∈ v, m ≤ lo c) : Asc (u ++ v) := by
  refine List.pairwise_append.2 ⟨hu, hv, ?_⟩
  intro a ha b hb
  have := h1 a ha
  have := h2 b hb
  omega

theorem cov_append {u v : List CellID} {q : Nat} : Cov (u ++ v) q ↔ Cov u q ∨ Cov v q := by
  unfold Cov
  constructor
  · rintro ⟨c, hc, h⟩
    rcases List.mem_append.1 hc with g | g
    · exact Or.inl ⟨c, g, h⟩
    · exact Or.inr ⟨c, g, h⟩
  · rintro (⟨c, hc, h⟩ | ⟨c, hc, h⟩)
    · exact ⟨c, List.mem_append_left _ hc, h⟩
    · exact ⟨c, List.mem_append_right _ hc, h⟩

theorem differenceInternal_spec {y : List CellID} (hvy : ∀ c ∈ y, Valid c) (hay : Asc y) :
    ∀ (n : Nat) (c : CellID), n = 30 - lv c → Valid c →
      ∃ out, differenceInternal c y = some out ∧ DiffOut y c out := by
  intro n
  induction n with
  | zero =>
    intro c hn vc
    have hl : lv c = 30 := by have := vc.lv_le; omega
    obtain ⟨b, eb, pb⟩ := intersectsCellID_spec hvy hay vc
    obtain ⟨b', eb', pb'⟩ := containsCellID_spec hvy hay vc
    have hcl := lo_lt_hi c
    have he : hi c = lo c + 1 := by rw [hi_eq, hl, E_30]
    rw [differenceInternal, eb, Option.bind_eq_bind, Option.bind_some]
    cases b with
    | false =>
      have hno : ∀ q, lo c ≤ q → q < hi c → ¬ Cov y q := by
        rintro q h1 h2 ⟨a, ha, g⟩
        have := pb.2 ⟨a, ha, by omega, by omega⟩
        cases this
      refine ⟨[c], by simp, ?_, by simp [Asc], ?_, ?_⟩
      · intro d hd; simp at hd; subst hd; exact ⟨vc, Nat.le_refl _, Nat.le_refl _⟩
      · intro q
        simp only [Cov, List.mem_singleton, exists_eq_left]
        constructor
        · intro h; exact ⟨h, hno q h.1 h.2⟩
        · intro h; exact h.1
      · intro d hd z vz h1 h2 h3 h4 hne
        simp at hd; subst hd
        exact absurd (vz.ext vc (by omega) (by omega)) hne
    | true =>
      obtain ⟨a, ha, a1, a2⟩ := pb.1 rfl
      have : b' = true := pb'.2 ⟨a, ha, by omega, by omega⟩
      subst this
      refine ⟨[], by simp [eb'], by simp, List.Pairwise.nil, ?_, by simp⟩
      intro q
      simp only [Cov, List.not_mem_nil, false_and, exists_false, false_iff]
      rintro ⟨h1, h2⟩
      exact h2 ⟨a, ha, by omega⟩
  | succ n ih =>
    intro c hn vc
    have hl : lv c < 30 := by omega
    have hn' : n = 30 - (lv c + 1) := by omega
    obtain ⟨b, eb, pb⟩ := intersectsCellID_spec hvy hay vc
    obtain ⟨b', eb', pb'⟩ := containsCellID_spec hvy hay vc
    have hcl := lo_lt_hi c
    rw [differenceInternal, eb, Option.bind_eq_bind, Option.bind_some]
    cases b with
    | false =>
      have hno : ∀ q, lo c ≤ q → q < hi c → ¬ Cov y q := by
        rintro q h1 h2 ⟨a, ha, g⟩
        have := pb.2 ⟨a, ha, by omega, by omega⟩
        cases this
      refine ⟨[c], by simp, ?_, by simp [Asc], ?_, ?_⟩
      · intro d hd; simp at hd; subst hd; exact ⟨vc, Nat.le_refl _, Nat.le_refl _⟩
      · intro q
        simp only [Cov, List.mem_singleton, exists_eq_left]
        constructor
        · intro h; exact ⟨h, hno q h.1 h.2⟩
        · intro h; exact h.1
      · intro d hd z vz h1 h2 h3 h4 hne
        simp at hd; subst hd
        exact absurd (vz.ext vc (by omega) (by omega)) hne
    | true =>
      obtain ⟨a, ha, a1, a2⟩ := pb.1 rfl
      cases b' with
      | true =>
        obtain ⟨a, ha, a1, a2⟩ := pb'.1 rfl
        refine ⟨[], by simp [eb'], by simp, List.Pairwise.nil, ?_, by simp⟩
        intro q
        simp only [Cov, List.not_mem_nil, false_and, exists_false, false_iff]
        rintro ⟨h1, h2⟩
        exact h2 ⟨a, ha, by omega⟩
      | false =>
        have kids : ∀ i, i < 4 → ∃ out, differenceInternal (kid c i) y = some out ∧
            DiffOut y (kid c i) out := by
          intro i hi4
          exact ih (kid c i) (by rw [lv_kid vc hl hi4]; exact hn') (kid_valid vc hl hi4)
        obtain ⟨r0, e0, d0⟩ := kids 0 (by decide)
        obtain ⟨r1, e1, d1⟩ := kids 1 (by decide)
        obtain ⟨r2, e2, d2⟩ := kids 2 (by decide)
        obtain ⟨r3, e3, d3⟩ := kids 3 (by decide)
        have n0 : (kid c 0).next = some (kid c 1) := next_kid vc hl (by decide)
        have n1 : (kid c 1).next = some (kid c 2) := next_kid vc hl (by decide)
        have n2 : (kid c 2).next = some (kid c 3) := next_kid vc hl (by decide)
        have e4 := hi_eq4 hl
        have hE := E_pos (lv c + 1)
        have f : ∀ i, i < 4 → lo (kid c i) = lo c + i * E (lv c + 1) ∧
            hi (kid c i) = lo c + (i + 1) * E (lv c + 1) :=
          fun i h => ⟨lo_kid vc hl h, hi_kid vc hl h⟩
        have f0 := f 0 (by decide)
        have f1 := f 1 (by decide)
        have f2 := f 2 (by decide)
        have f3 := f 3 (by decide)
        refine ⟨r0 ++ (r1 ++ (r2 ++ r3)), ?_, ?_, ?_, ?_, ?_⟩
        · simp [eb', childBegin_kid vc hl, e0, n0, e1, n1, e2, n2, e3]
        · intro d hd
          simp only [List.mem_append] at hd
          rcases hd with h | h | h | h
          · have := d0.1 d h; exact ⟨this.1, by omega, by omega⟩
          · have := d1.1 d h; exact ⟨this.1, by omega, by omega⟩
          · have := d2.1 d h; exact ⟨this.1, by omega, by omega⟩
          · have := d3.1 d h; exact ⟨this.1, by omega, by omega⟩
        · have a23 : Asc (r2 ++ r3) := asc_append d2.2.1 d3.2.1 (m := lo (kid c 3))
            (fun d hd => by have := d2.1 d hd; omega) (fun d hd => (d3.1 d hd).2.1)
          have a123 : Asc (r1 ++ (r2 ++ r3)) := asc_append d1.2.1 a23 (m := lo (kid c 2))
            (fun d hd => by have := d1.1 d hd; omega)
            (fun d hd => by
              rcases List.mem_append.1 hd with h | h
              · exact (d2.1 d h).2.1
              · have := d3.1 d h; omega)
          exact asc_append d0.2.1 a123 (m := lo (kid c 1))
            (fun d hd => by have := d0.1 d hd; omega)
            (fun d hd => by
              simp only [List.mem_append] at hd
              rcases hd with h | h | h
              · exact (d1.1 d h).2.1
              · have := d2.1 d h; omega
              · have := d3.1 d h; omega)
        · intro q
          rw [cov_append, cov_append, cov_append, d0.2.2.1, d1.2.2.1, d2.2.2.1, d3.2.2.1,
            covers_kids vc hl]
          constructor
          · rintro (h | h | h | h)
            · exact ⟨⟨0, by decide, h.1⟩, h.2⟩
            · exact ⟨⟨1, by decide, h.1⟩, h.2⟩
            · exact ⟨⟨2, by decide, h.1⟩, h.2⟩
            · exact ⟨⟨3, by decide, h.1⟩, h.2⟩
          · rintro ⟨⟨i, hi4, h⟩, h2⟩
            have : i = 0 ∨ i = 1 ∨ i = 2 ∨ i = 3 := by omega
            rcases this with rfl | rfl | rfl | rfl
            · exact Or.inl ⟨h, h2⟩
            · exact Or.inr (Or.inl ⟨h, h2⟩)
            · exact Or.inr (Or.inr (Or.inl ⟨h, h2⟩))
            · exact Or.inr (Or.inr (Or.inr ⟨h, h2⟩))
        · intro d hd z vz h1 h2 h3 h4 hne
          by_cases hzc : c = z
          · subst hzc
            rcases Nat.lt_or_ge (lo a) (lo c) with g | g
            · exact ⟨lo c, Nat.le_refl _, hcl, a, ha, by omega⟩
            · exact ⟨lo a, g, by omega, a, ha, by have := lo_lt_hi a; omega⟩
          · obtain ⟨_, j, hj, k1, k2⟩ := exists_kid vc vz h1 h2 hzc
            have fj := f j hj
            have sub : ∀ i r, i < 4 → DiffOut y (kid c i) r → d ∈ r →
                ∃ q, lo z ≤ q ∧ q < hi z ∧ Cov y q := by
              intro i r hi4 hD hdr
              have fi := f i hi4
              have hdd := hD.1 d hdr
              have hdl := lo_lt_hi d
              have hij : i = j := by
                rcases Nat.lt_trichotomy i j with g | g | g
                · have := Nat.mul_le_mul_right (E (lv c + 1)) (show i + 1 ≤ j from g)
                  omega
                · exact g
                · have := Nat.mul_le_mul_right (E (lv c + 1)) (show j + 1 ≤ i from g)
                  omega
              subst hij
              exact hD.2.2.2 d hdr z vz k1 k2 h3 h4 hne
            simp only [List.mem_append] at hd
            rcases hd with h | h | h | h
            · exact sub 0 r0 (by decide) d0 h
            · exact sub 1 r1 (by decide) d1 h
            · exact sub 2 r2 (by decide) d2 h
            · exact sub 3 r3 (by decide) d3 h

theorem differenceLoop_spec {y : List CellID} (hvy : ∀ c ∈ y, Valid c) (hay : Asc y) :
    ∀ x : List CellID, (∀ c ∈ x, Valid c) → Asc x →
      ∃ out, differenceLoop y x = some out ∧
        (∀ d ∈ out, ∃ c ∈ x, ∃ o, DiffOut y c o ∧ d ∈ o) ∧ Asc out ∧
        ∀ q, Cov out q ↔ Cov x q ∧ ¬ Cov y q := by
  intro x
  induction x with
  | nil =>
    intro _ _
    exact ⟨[], rfl, by simp, List.Pairwise.nil, fun q => by simp [Cov]⟩
  | cons c rest ih =>
    intro hv ha
    have ha1 := List.pairwise_cons.1 ha
    obtain ⟨r, e, hr⟩ := differenceInternal_spec hvy hay _ c rfl (hv c (by simp))
    obtain ⟨rs, es, h1, h2, h3⟩ := ih (fun d hd => hv d (by simp [hd])) ha1.2
    refine ⟨r ++ rs, by simp [differenceLoop, e, es], ?_, ?_, ?_⟩
    · intro d hd
      rcases List.mem_append.1 hd with h | h
      · exact ⟨c, by simp, r, hr, h⟩
      · obtain ⟨c', hc', o, ho, hd'⟩ := h1 d h
        exact ⟨c', by simp [hc'], o, ho, hd'⟩
    · apply asc_append hr.2.1 h2 (m := hi c)
      · intro d hd; exact (hr.1 d hd).2.2
      · intro d hd
        obtain ⟨c', hc', o, ho, hd'⟩ := h1 d hd
        have := ha1.1 c' hc'
        have := (ho.1 d hd').2.1
        omega
    · intro q
      rw [cov_append, hr.2.2.1, h3, cov_cons]
      tauto

theorem difference_spec {x y : List CellID} (hx : IsUnion x) (hy : IsUnion y) :
    ∃ out, difference x y = some out ∧ IsUnion out ∧
      (∀ q, Covers out q ↔ Covers x q ∧ ¬ Covers y q) ∧ (Normal x → Normal out) := by
  rw [isUnion_iff] at hx hy
  obtain ⟨hvx, hax⟩ := hx
  obtain ⟨hvy, hay⟩ := hy
  obtain ⟨out, e, h1, h2, h3⟩ := differenceLoop_spec hvy hay x hvx hax
  have hvo : ∀ d ∈ out, Valid d := by
    intro d hd
    obtain ⟨c, _, o, ho, hd'⟩ := h1 d hd
    exact (ho.1 d hd').1
  have hcov : ∀ q, Covers out q ↔ Covers x q ∧ ¬ Covers y q := by
    intro q
    rw [cov_iff hvo, cov_iff hvx, cov_iff hvy, h3]
  have hn : Normal x → Normal out := by
    intro nx
    rw [normal_iff] at nx ⊢
    refine ⟨hvo, h2, ?_⟩
    intro z vz hl hk
    have zc : ∀ q, lo z ≤ q → q < hi z → Covers out q := by
      intro q a b
      obtain ⟨i, hi4, g⟩ := (covers_kids vz hl q).1 ⟨a, b⟩
      rw [cov_iff hvo]
      exact ⟨_, hk i hi4, g⟩
    obtain ⟨a, ha, a1, a2⟩ := exists_super' hvx nx.2.2 vz (fun q g1 g2 => ((hcov q).1 (zc q g1 g2)).1)
    have l0 := lo_kid vz hl (show 0 < 4 by decide)
    have u0 := hi_kid vz hl (show 0 < 4 by decide)
    have e4 := hi_eq4 hl
    have hE := E_pos (lv z + 1)
    obtain ⟨c, hc, o, ho, hd'⟩ := h1 _ (hk 0 (by decide))
    have hb := ho.1 _ hd'
    have hca : c = a := hax.eq_of_overlap hc ha (by omega) (by omega)
    subst hca
    obtain ⟨q, q1, q2, q3⟩ := ho.2.2.2 _ hd' z vz a1 a2 (by omega) (by omega) (by
      intro hz
      rw [← hz] at u0 l0
      omega)
    exact ((hcov q).1 (zc q q1 q2)).2 ((cov_iff hvy q).2 q3)
  refine ⟨out, ?_, (isUnion_iff out).2 ⟨hvo, h2⟩, hcov, hn⟩
  have ea : assertNormalized out [x] = some () := by
    apply assertNormalized_ok hvo
    · intro z hz; simp at hz; subst hz; exact hvx
    · intro h; exact hn (h x (by simp))
  simp only [difference, e, ea, Option.bind_eq_bind, Option.bind_some]

/-! ### `from_range` -/

theorem fromRange_loop {T : Nat} (hT : T ≤ 6 * W₀) : ∀ (n k p : Nat), n = T - p * E k →
    IsLim k p → p * E k ≤ T →
    ∃ out, ((mk k p).maxTile (mk 30 T)).bind (fun cur => fromRangeLoop cur (mk 30 T)) = some out ∧
      (∀ d ∈ out, Valid d ∧ p * E k ≤ lo d ∧ hi d ≤ T ∧
        ∀ z, Valid z → lo z = lo d → hi z ≤ T → hi z ≤ hi d) ∧
      Asc out ∧ ∀ q, Cov out q ↔ p * E k ≤ q ∧ q < T := by
  have hlim := leaf_lim hT
  intro n
  induction n using Nat.strongRecOn with
  | _ n ih =>
    intro k p hn hL hle
    rcases Nat.eq_or_lt_of_le hle with g | g
    · rw [maxTile_stop hL hlim (by rw [E_30]; omega), Option.bind_some, fromRangeLoop, if_pos rfl]
      refine ⟨[], rfl, by simp, List.Pairwise.nil, ?_⟩
      intro q
      simp only [Cov, List.not_mem_nil, false_and, exists_false, false_iff]
      omega
    · obtain ⟨j, r, e, hc, e1, e2, e3⟩ := maxTile_mk hL hlim (show p * E k < T * E 30 by rw [E_30]; omega)
      rw [E_30, Nat.mul_one] at e2 e3
      rw [e, Option.bind_some, fromRangeLoop]
      have hE := E_pos j
      have hne : mk j r ≠ mk 30 T := by
        intro hh
        have h1 := toNat_mk hc
        rw [hh, toNat_lim hlim, E_30] at h1
        omega
      rw [if_neg hne, next_raw hc, Option.bind_eq_bind, Option.bind_some]
      have hadd : (r + 1) * E j = p * E k + E j := by rw [Nat.add_mul, e1]; omega
      have hL' : IsLim j (r + 1) := ⟨hc.1, hc.2⟩
      obtain ⟨rest, er, r1, r2, r3⟩ := ih _ (by rw [hadd]; omega) j (r + 1) rfl hL' (by omega)
      have lj : lo (mk j r) = p * E k := by rw [lo_mk hc, e1]
      have uj : hi (mk j r) = p * E k + E j := by rw [hi_mk hc, e1]
      refine ⟨mk j r :: rest, ?_, ?_, ?_, ?_⟩
      · simp only [Option.bind_eq_bind] at er ⊢
        cases hm : (mk j (r + 1)).maxTile (mk 30 T) with
        | none => rw [hm] at er; cases er
        | some cur =>
          rw [hm, Option.bind_some] at er
          rw [Option.bind_some, er, Option.bind_some]
      · intro d hd
        rcases List.mem_cons.1 hd with rfl | hd
        · refine ⟨valid_mk hc, by omega, by omega, ?_⟩
          intro z vz h1 h2
          have hz := vz.isCell
          have hzE : hi z = lo z + E (lv z) := rfl
          have := e3 (lv z) (px z) hz (by change lo z = _; omega) (by omega)
          have := E_le_E this
          omega
        · obtain ⟨a1, a2, a3, a4⟩ := r1 d hd
          exact ⟨a1, by omega, a3, a4⟩
      · refine List.pairwise_cons.2 ⟨?_, r2⟩
        intro d hd
        have := (r1 d hd).2.1
        omega
      · intro q
        rw [cov_cons, r3]
        omega

theorem fromRange_spec {S T : Nat} (hS : S ≤ T) (hT : T ≤ 6 * W₀) :
    ∃ out, fromRange (mk 30 S) (mk 30 T) = some out ∧ Normal out ∧
      ∀ q, Covers out q ↔ S ≤ q ∧ q < T := by
  obtain ⟨out, e, h1, h2, h3⟩ := fromRange_loop hT _ 30 S rfl (leaf_lim (by omega))
    (by rw [E_30]; omega)
  rw [E_30, Nat.mul_one] at h3
  have hv : ∀ d ∈ out, Valid d := fun d hd => (h1 d hd).1
  refine ⟨out, e, ?_, ?_⟩
  · rw [normal_iff]
    refine ⟨hv, h2, ?_⟩
    intro z vz hl hk
    have l0 := lo_kid vz hl (show 0 < 4 by decide)
    have u0 := hi_kid vz hl (show 0 < 4 by decide)
    have u3 := hi_kid vz hl (show 3 < 4 by decide)
    have e4 := hi_eq4 hl
    have hE := E_pos (lv z + 1)
    have := (h1 _ (hk 0 (by decide))).2.2.2 z vz (by omega) (by
      have := (h1 _ (hk 3 (by decide))).2.2.1
      omega)
    omega
  · intro q
    rw [cov_iff hv, h3]

end Verif
