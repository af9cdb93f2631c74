import Verif.Proofs.Platform

/-! # When does formatting read behind the `POWER10` table?

`strictEnv env` answers every out-of-range read with undefined behaviour. -/

namespace Lexi
open Spec Soft Dtoa DiyFp

/-- The same platform with out-of-range reads undefined. -/
def strictEnv (env : Env) : Env := ⟨env.v, env.dk, strict⟩

theorem bind_ok {α β : Type} {r : Res α} {f : α → Res β} {b : β} (h : (r >>= f) = .ok b) :
    ∃ a, r = .ok a ∧ f a = .ok b := by
  cases r with
  | ok a => exact ⟨a, rfl, h⟩
  | throws => exact absurd h (by simp)
  | ub => exact absurd h (by simp)

theorem power10_in {env : Env} {i : ℕ} (h : i < 10) : power10 (strictEnv env) i = power10 env i := by
  unfold power10
  have : POWER10[i]? = some (POWER10[i]'h) := List.getElem?_eq_getElem h
  rw [this]

theorem power10_out {env : Env} {i : ℕ} (h : 10 ≤ i) : power10 (strictEnv env) i = .ub := by
  unfold power10
  have : POWER10[i]? = none := List.getElem?_eq_none h
  rw [this]; rfl

/-- What the strict evaluation gives when the plain one ends with exponent `k'`. -/
def StrictAs (r : Res (Cur × Int)) (k : Int) (c : Cur × Int) : Prop :=
  (k - 9 ≤ c.2 → r = .ok c) ∧ (c.2 < k - 9 → r = .ub)

theorem loop2_strict (env : Env) (base : ℕ) (sh : Int) (one wpw : UInt64) (k : Int) :
    ∀ fuel i b p2 delta c, loop2 env base sh one wpw k fuel i b p2 delta = .ok c →
      StrictAs (loop2 (strictEnv env) base sh one wpw k fuel i b p2 delta) k c := by
  intro fuel
  induction fuel with
  | zero => intro i b p2 delta c h; unfold loop2 at h; exact absurd h (by simp)
  | succ n ih =>
    intro i b p2 delta c h
    unfold loop2 at h ⊢
    obtain ⟨s, hs, h⟩ := bind_ok h
    obtain ⟨b', hb, h⟩ := bind_ok h
    dsimp only at h ⊢
    rw [hs, Res.ok_bind, hb, Res.ok_bind]
    split at h
    · next hlt =>
      rw [if_pos hlt]
      obtain ⟨w, hw, h⟩ := bind_ok h
      obtain ⟨b2, hb2, h⟩ := bind_ok h
      have hc : c = (b2, k + -((i + 1 : ℕ) : Int)) := by
        simp only [Res.pure_eq, Res.ok.injEq] at h; exact h.symm
      subst hc
      constructor
      · intro hk
        dsimp only at hk
        rw [power10_in (by omega), hw, Res.ok_bind, hb2]; rfl
      · intro hk
        dsimp only at hk
        rw [power10_out (by omega)]; rfl
    · next hge =>
      rw [if_neg hge]
      exact ih _ _ _ _ _ h

theorem loop1_strict (env : Env) (base : ℕ) (sh : Int) (one wpw p2 delta : UInt64) (k : Int) :
    ∀ kappa b p1 c, loop1 env base sh one wpw p2 delta k kappa b p1 = .ok c →
      StrictAs (loop1 (strictEnv env) base sh one wpw p2 delta k kappa b p1) k c := by
  intro kappa
  induction kappa with
  | zero => intro b p1 c h; unfold loop1 at h ⊢; exact loop2_strict _ _ _ _ _ _ _ _ _ _ _ _ h
  | succ n ih =>
    intro b p1 c h
    unfold loop1 at h ⊢
    obtain ⟨d, hd, h⟩ := bind_ok h
    have hn : n < 10 := by
      by_contra hcon
      unfold switchDiv at hd
      split at hd <;> first | omega | exact absurd hd (by simp)
    obtain ⟨b', hb, h⟩ := bind_ok h
    obtain ⟨s, hs, h⟩ := bind_ok h
    rw [hd, Res.ok_bind]
    dsimp only at hb h ⊢
    rw [hb, Res.ok_bind, hs, Res.ok_bind]
    split at h
    · next hlt =>
      rw [if_pos hlt, power10_in hn]
      rw [h]
      obtain ⟨w, hw, h⟩ := bind_ok h
      obtain ⟨t, ht, h⟩ := bind_ok h
      obtain ⟨b2, hb2, h⟩ := bind_ok h
      have hc : c = (b2, k + (n : Int)) := by
        simp only [Res.pure_eq, Res.ok.injEq] at h; exact h.symm
      subst hc
      exact ⟨fun _ => rfl, fun hk => absurd hk (by dsimp only; omega)⟩
    · next hge =>
      rw [if_neg hge]
      exact ih _ _ _ h

theorem grisu2_strict (env : Env) (hdk : DkOk env.dk) (u : UInt64) (hfin : DFinite u) (hnz : ¬ DZero u)
    (b : Cur) (c : Cur × Int) (h : grisu2 env u b = .ok c) :
    StrictAs (grisu2 (strictEnv env) u b) (-cachedK u) c := by
  obtain ⟨mi, pl, e, -, h2, -, -⟩ := normalizedBoundaries_eq env.v.bound u hnz _ rfl
  have hr := boundary_range u hfin hnz
  obtain ⟨f, ce, K, hg, hK, -⟩ := getCachedPower_eq env hdk pl.e (by rw [h2]; exact hr.1) (by rw [h2]; exact hr.2)
  have hKc : K = cachedK u := by rw [hK, h2]; rfl
  have hg' : getCachedPower (strictEnv env) pl.e = .ok (⟨f, ce⟩, -K) := by
    rw [← hg]; unfold getCachedPower; rfl
  unfold grisu2 at h ⊢
  have hv : (strictEnv env).v = env.v := rfl
  simp only [hv] at h ⊢
  rw [e, Res.ok_bind] at h ⊢
  dsimp only at h ⊢
  rw [hg, Res.ok_bind] at h
  rw [hg', Res.ok_bind]
  obtain ⟨w, hw, h⟩ := bind_ok h
  rw [hw, Res.ok_bind]
  unfold generateDigits at h ⊢
  obtain ⟨o, ho, h⟩ := bind_ok h
  obtain ⟨x, hx, h⟩ := bind_ok h
  rw [ho, Res.ok_bind, hx, Res.ok_bind, ← hKc]
  exact loop1_strict _ _ _ _ _ _ _ _ _ _ _ _ h

/-- Where the digits of a double begin. -/
def digitStart (u : UInt64) (M : Bytes) : Cur := if dNeg u then at_ M 0 [45] else ⟨M, 0⟩

theorem dtoa_grisu2 (env : Env) (u : UInt64) (hnz : ¬ DZero u) (M : Bytes) (hM : 1 ≤ M.length) :
    dtoa env u ⟨M, 0⟩ = (grisu2 env (dAbs u) (digitStart u M) >>= fun r =>
      prettify r.1.mem (digitStart u M).pos ((r.1.pos - (digitStart u M).pos : Nat) : Int) r.2) := by
  have hz : Ieee.eqZero u = false := by
    rw [Bool.eq_false_iff]; exact fun h' => hnz ((eqZero_iff u).mp h')
  unfold dtoa digitStart
  rw [hz]
  by_cases hn : dNeg u
  · have hput : (⟨M, 0⟩ : Cur).put 45 = .ok (at_ M 0 [45]) := by
      have h := at_put M 0 [] 45 (by simp; omega)
      have e : at_ M 0 [] = ⟨M, 0⟩ := by simp [at_]
      rw [e] at h; simpa using h
    rw [(ltZero_iff hnz).mpr hn, dAbs_of_neg hn, if_pos hn]
    simp only [hput, Res.ok_bind, Res.pure_eq, if_true, Bool.false_eq_true, if_false]
  · have hlt : Ieee.ltZero u = false := by
      rw [Bool.eq_false_iff]; exact fun h' => hn ((ltZero_iff hnz).mp h')
    rw [hlt, dAbs_of_not_neg hn, if_neg hn]
    simp only [Res.ok_bind, Res.pure_eq, Bool.false_eq_true, if_false]

/-- The exponent with which a double is printed decides: formatting is defined iff it is at least
`-cachedK u - 9`, i.e. at most nine digits were produced by the fractional loop. -/
theorem formatLd_strict (env : Env) (henv : EnvOk env) (u : UInt64) (hfin : DFinite u) (hnz : ¬ DZero u) :
    ∃ D k, Printed u D k ∧ ∀ x : LVal, dAbs x.toDouble = dAbs u → ∀ L junk, junk.length = FLOAT_SIZE →
      formatLd L env junk x =
        .ok ⟨signed (dNeg x.toDouble) (prettyText (decN D) k) ++
              0 :: junk.drop ((signed (dNeg x.toDouble) (prettyText (decN D) k)).length + 1), 0,
            (signed (dNeg x.toDouble) (prettyText (decN D) k)).length⟩ ∧
      (-cachedK u - 9 ≤ k → formatLd L (strictEnv env) junk x = formatLd L env junk x) ∧
      (k < -cachedK u - 9 → formatLd L (strictEnv env) junk x = .ub) := by
  obtain ⟨D, k, hP, hg, hf⟩ := formatLd_finite' env henv u hfin hnz
  refine ⟨D, k, hP, fun x hx L junk hj => ⟨hf x hx L junk hj, ?_⟩⟩
  unfold FLOAT_SIZE at hj
  have hfa := finite_abs.mpr hfin
  have hza : ¬ DZero (dAbs u) := fun h => hnz (zero_abs.mp h)
  have hxf : Ieee.isFinite x.toDouble = true := by
    rw [isFinite_iff, ← finite_abs, hx, finite_abs]; exact hfin
  have hxz : ¬ DZero x.toDouble := by rw [← zero_abs, hx, zero_abs]; exact hnz
  obtain ⟨c, hgc, hc2⟩ : ∃ c, grisu2 env (dAbs u) (digitStart x.toDouble junk) = .ok c ∧ c.2 = k := by
    have hroom : (digitStart x.toDouble junk).pos + 17 ≤ (digitStart x.toDouble junk).mem.length := by
      unfold digitStart
      split
      · simp [at_]; omega
      · show 0 + 17 ≤ junk.length; omega
    exact ⟨_, hg (digitStart x.toDouble junk).mem (digitStart x.toDouble junk).pos hroom, rfl⟩
  have hs := grisu2_strict env henv.dk (dAbs u) hfa hza _ _ hgc
  rw [cachedK_abs] at hs
  unfold StrictAs at hs
  rw [hc2] at hs
  unfold formatLd
  rw [hxf]
  simp only [Bool.not_true, Bool.false_eq_true, if_false]
  rw [dtoa_grisu2 env _ hxz junk (by omega), dtoa_grisu2 (strictEnv env) _ hxz junk (by omega), hx]
  constructor
  · intro hk
    rw [hs.1 hk, hgc]
  · intro hk
    rw [hs.2 hk]; rfl

/-- A text obtained under the strict reading is the text on every platform. -/
theorem strict_transfer {env env' : Env} (h : DkOk env.dk) (h' : DkOk env'.dk) (L : Literals) (junk : Bytes) (x : LVal)
    (o : FloatObj) (hok : formatLd L (strictEnv env) junk x = .ok o) :
    formatLd L env' junk x = .ok o := by
  by_cases hfin : Ieee.isFinite x.toDouble = true
  · have h1 : formatLd L (strictEnv env') junk x = .ok o := by
      rw [← hok]
      unfold formatLd
      rw [hfin]
      simp only [Bool.not_true, Bool.false_eq_true, if_false]
      rw [dtoa_congr (env := strictEnv env) (env' := strictEnv env') rfl h h' _ ((isFinite_iff _).mp hfin)]
    rcases formatLd_refines (env := strictEnv env') (env' := env') rfl rfl (fun i => Or.inl rfl) L junk x with h2 | h2
    · rw [h2] at h1; exact absurd h1 (by simp)
    · rw [← h2, h1]
  · rw [← hok]
    unfold formatLd
    simp only [hfin, Bool.not_false, if_true]

end Lexi
