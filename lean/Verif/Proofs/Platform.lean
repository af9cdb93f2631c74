import Verif.Proofs.ReadBack

/-! # Dependence on the platform: compiler variants, floating evaluation, out-of-range reads -/

namespace Lexi
open Spec Soft Dtoa DiyFp

/-! ## Compiler variants -/

theorem mul_variant (v w : MulImpl) (l r : DiyFp) : DiyFp.mul v l r = DiyFp.mul w l r :=
  ext_toNat (by rw [mul_toNat, mul_toNat]) (by rw [mul_e, mul_e])

theorem normalize_variant (v w : NormImpl) (x : DiyFp) (h : x.f ≠ 0) (hlt : x.f.toNat < 2 ^ 53) :
    DiyFp.normalize v x = DiyFp.normalize w x := by
  obtain ⟨r, e, h1, h2⟩ := normalize_eq v x h hlt
  obtain ⟨r', e', h1', h2'⟩ := normalize_eq w x h hlt
  rw [e, e', ext_toNat (h1.trans h1'.symm) (h2.trans h2'.symm)]

theorem normalizeBoundary_variant (v w : BoundImpl) (x : DiyFp) (h : x.f ≠ 0) (hlt : x.f.toNat < 2 ^ 54) :
    DiyFp.normalizeBoundary v x = DiyFp.normalizeBoundary w x := by
  obtain ⟨r, e, h1, h2⟩ := normalizeBoundary_eq v x h hlt
  obtain ⟨r', e', h1', h2'⟩ := normalizeBoundary_eq w x h hlt
  rw [e, e', ext_toNat (h1.trans h1'.symm) (h2.trans h2'.symm)]

theorem boundaries_variant (v w : BoundImpl) (u : UInt64) (hnz : ¬ DZero u) :
    DiyFp.normalizedBoundaries v (DiyFp.ofDouble u) = DiyFp.normalizedBoundaries w (DiyFp.ofDouble u) := by
  obtain ⟨mi, pl, e, h1, h2, h3, h4⟩ := normalizedBoundaries_eq v u hnz _ rfl
  obtain ⟨mi', pl', e', h1', h2', h3', h4'⟩ := normalizedBoundaries_eq w u hnz _ rfl
  rw [e, e', ext_toNat (h1.trans h1'.symm) (h2.trans h2'.symm), ext_toNat (h3.trans h3'.symm) (h4.trans h4'.symm)]

/-! ## The digit loops use only `oob` of the environment -/

theorem power10_congr {env env' : Env} (h : env.oob = env'.oob) : power10 env = power10 env' := by
  funext i; unfold power10; rw [h]

theorem loop2_congr {env env' : Env} (h : env.oob = env'.oob) (base : ℕ) (sh : Int) (one wpw : UInt64) (k : Int) :
    ∀ fuel i b p2 delta, loop2 env base sh one wpw k fuel i b p2 delta = loop2 env' base sh one wpw k fuel i b p2 delta := by
  intro fuel
  induction fuel with
  | zero => intros; rfl
  | succ n ih =>
    intro i b p2 delta
    unfold loop2
    simp only [power10_congr h, ih]

theorem loop1_congr {env env' : Env} (h : env.oob = env'.oob) (base : ℕ) (sh : Int) (one wpw p2 delta : UInt64) (k : Int) :
    ∀ kappa b p1, loop1 env base sh one wpw p2 delta k kappa b p1 = loop1 env' base sh one wpw p2 delta k kappa b p1 := by
  intro kappa
  induction kappa with
  | zero => intro b p1; unfold loop1; rw [loop2_congr h]
  | succ n ih =>
    intro b p1
    unfold loop1
    simp only [power10_congr h, ih]

theorem generateDigits_congr {env env' : Env} (h : env.oob = env'.oob) (W Mp : DiyFp) (delta : UInt64) (b : Cur) (k : Int) :
    generateDigits env W Mp delta b k = generateDigits env' W Mp delta b k := by
  unfold generateDigits
  simp only [loop1_congr h]

theorem getCachedPower_congr {env env' : Env} (h : DkOk env.dk) (h' : DkOk env'.dk) (e : Int) (h1 : -1137 ≤ e) (h2 : e ≤ 960) :
    getCachedPower env e = getCachedPower env' e := by
  obtain ⟨p1, i1⟩ := index_eq env.dk h e h1 h2
  obtain ⟨p2, i2⟩ := index_eq env'.dk h' e h1 h2
  unfold getCachedPower
  simp only [kk_eq_ceil _ p1, kk_eq_ceil _ p2, i1, i2]

/-- Exponent of the upper boundary. -/
theorem boundary_range (u : UInt64) (hfin : DFinite u) (hnz : ¬ DZero u) :
    -1137 ≤ dUlpExp u - (63 - (dSig u).log2 : ℕ) ∧ dUlpExp u - (63 - (dSig u).log2 : ℕ) ≤ 960 := by
  have hlt := dSig_lt u
  have hpos := dSig_pos hnz
  have hl : (dSig u).log2 < 53 := (Nat.log2_lt (by omega)).2 hlt
  have hE : dExp u ≤ 2046 := by
    have := dExp_lt u; unfold DFinite at hfin; omega
  by_cases h0 : dExp u = 0
  · have : dUlpExp u = -1074 := by unfold dUlpExp; rw [if_pos h0]
    omega
  · have h1 : dUlpExp u = (dExp u : ℤ) - 1075 := by unfold dUlpExp; rw [if_neg h0]
    have h2 : 2 ^ 52 ≤ dSig u := by unfold dSig; rw [if_neg h0]; omega
    have : 52 ≤ (dSig u).log2 := (Nat.le_log2 (by omega)).2 h2
    omega

theorem grisu2_congr {env env' : Env} (ho : env.oob = env'.oob) (h : DkOk env.dk) (h' : DkOk env'.dk) (u : UInt64)
    (hfin : DFinite u) (hnz : ¬ DZero u) (b : Cur) : grisu2 env u b = grisu2 env' u b := by
  obtain ⟨mi, pl, e, -, h2, -, -⟩ := normalizedBoundaries_eq env.v.bound u hnz _ rfl
  have hr := boundary_range u hfin hnz
  unfold grisu2
  simp only
  rw [← boundaries_variant env.v.bound env'.v.bound u hnz, e]
  simp only [Res.ok_bind]
  have hc := getCachedPower_congr h h' pl.e (by rw [h2]; exact hr.1) (by rw [h2]; exact hr.2)
  rw [hc]
  have hn : DiyFp.normalize env.v.norm (DiyFp.ofDouble u) = DiyFp.normalize env'.v.norm (DiyFp.ofDouble u) := by
    apply normalize_variant
    · intro h0
      have h1 : (DiyFp.ofDouble u).f.toNat = 0 := by rw [h0]; rfl
      rw [(ofDouble_eq u).1] at h1
      have := dSig_pos hnz; omega
    · rw [(ofDouble_eq u).1]; exact dSig_lt u
  rw [hn]
  simp only [mul_variant env.v.mul env'.v.mul, generateDigits_congr ho]

theorem dtoa_congr {env env' : Env} (ho : env.oob = env'.oob) (h : DkOk env.dk) (h' : DkOk env'.dk) (u : UInt64)
    (hfin : DFinite u) (b : Cur) : dtoa env u b = dtoa env' u b := by
  unfold dtoa
  by_cases hz : Ieee.eqZero u = true
  · simp only [hz, if_true]
  · have hnz : ¬ DZero u := fun h0 => hz ((eqZero_iff u).mpr h0)
    simp only [hz, Bool.false_eq_true, if_false]
    by_cases hl : Ieee.ltZero u = true
    · have hn : dNeg u := (ltZero_iff hnz).mp hl
      have ha : Ieee.neg u = dAbs u := (dAbs_of_neg hn).symm
      simp only [hl, if_true, ha]
      have hg := fun c => grisu2_congr ho h h' (dAbs u) (finite_abs.mpr hfin) (fun h0 => hnz (zero_abs.mp h0)) c
      cases hb : b.put 45 with
      | ok c => simp only [Res.ok_bind, Res.pure_eq, hg c]
      | throws => simp only [Res.throws_bind]
      | ub => simp only [Res.ub_bind]
    · simp only [hl, Res.pure_eq, Res.ok_bind, Bool.false_eq_true, if_false]
      rw [grisu2_congr ho h h' u hfin hnz b]

/-! ## Out-of-range reads -/

/-- `r` is undefined, or the same as `r'`. -/
def Refines {α : Type} (r r' : Res α) : Prop := r = .ub ∨ r = r'

theorem Refines.refl {α : Type} (r : Res α) : Refines r r := Or.inr rfl

theorem Refines.bind {α β : Type} {r r' : Res α} {f g : α → Res β} (h : Refines r r') (hf : ∀ a, Refines (f a) (g a)) :
    Refines (r >>= f) (r' >>= g) := by
  rcases h with h | h
  · left; rw [h]; rfl
  · rw [h]
    cases r' with
    | ok a => exact hf a
    | throws => exact Or.inr rfl
    | ub => exact Or.inl rfl

theorem power10_refines {env env' : Env} (h : ∀ i, Refines (env.oob i) (env'.oob i)) (i : ℕ) :
    Refines (power10 env i) (power10 env' i) := by
  unfold power10
  cases POWER10[i]? with
  | some w => exact Refines.refl _
  | none => exact h i

theorem loop2_refines {env env' : Env} (h : ∀ i, Refines (env.oob i) (env'.oob i)) (base : ℕ) (sh : Int)
    (one wpw : UInt64) (k : Int) : ∀ fuel i b p2 delta,
      Refines (loop2 env base sh one wpw k fuel i b p2 delta) (loop2 env' base sh one wpw k fuel i b p2 delta) := by
  intro fuel
  induction fuel with
  | zero => intros; exact Refines.refl _
  | succ n ih =>
    intro i b p2 delta
    unfold loop2
    refine (Refines.refl _).bind fun d => (Refines.refl _).bind fun b => ?_
    dsimp only
    split
    · exact (power10_refines h _).bind fun w => (Refines.refl _).bind fun b => Refines.refl _
    · exact ih ..

theorem loop1_refines {env env' : Env} (h : ∀ i, Refines (env.oob i) (env'.oob i)) (base : ℕ) (sh : Int)
    (one wpw p2 delta : UInt64) (k : Int) : ∀ kappa b p1,
      Refines (loop1 env base sh one wpw p2 delta k kappa b p1) (loop1 env' base sh one wpw p2 delta k kappa b p1) := by
  intro kappa
  induction kappa with
  | zero => intro b p1; unfold loop1; apply loop2_refines h
  | succ n ih =>
    intro b p1
    unfold loop1
    refine (Refines.refl _).bind fun d => (Refines.refl _).bind fun b => (Refines.refl _).bind fun x => ?_
    dsimp only
    split
    · exact (power10_refines h _).bind fun w => (Refines.refl _).bind fun t => (Refines.refl _).bind fun b => Refines.refl _
    · exact ih ..

theorem dtoa_refines {env env' : Env} (hv : env.v = env'.v) (hd : env.dk = env'.dk)
    (h : ∀ i, Refines (env.oob i) (env'.oob i)) (u : UInt64) (b : Cur) :
    Refines (dtoa env u b) (dtoa env' u b) := by
  have hg : ∀ u b, Refines (grisu2 env u b) (grisu2 env' u b) := by
    intro u b
    unfold grisu2
    simp only
    rw [hv]
    refine (Refines.refl _).bind fun p => ?_
    have hc : ∀ e, getCachedPower env e = getCachedPower env' e := by
      intro e; unfold getCachedPower; rw [hd]
    rw [hc]
    refine (Refines.refl _).bind fun c => (Refines.refl _).bind fun w => ?_
    unfold generateDigits
    exact (Refines.refl _).bind fun o => (Refines.refl _).bind fun x => loop1_refines h ..
  unfold dtoa
  split
  · exact Refines.refl _
  · dsimp only
    split
    · exact (Refines.refl _).bind fun p => (Refines.refl _).bind fun q => (hg _ _).bind fun r => Refines.refl _
    · exact (Refines.refl _).bind fun q => (hg _ _).bind fun r => Refines.refl _

theorem formatLd_refines {env env' : Env} (hv : env.v = env'.v) (hd : env.dk = env'.dk)
    (h : ∀ i, Refines (env.oob i) (env'.oob i)) (L : Literals) (junk : Bytes) (x : LVal) :
    Refines (formatLd L env junk x) (formatLd L env' junk x) := by
  unfold formatLd
  split
  · exact Refines.refl _
  · exact (dtoa_refines hv hd h _ _).bind fun c => Refines.refl _

end Lexi
