import Verif.Proofs.Frame

/-!
# What the words behind `POWER10` can change

They are used by the last rounding step only, which changes the last digit only.
-/

namespace Lexi.Dtoa
open Spec

/-- Two results that differ at most in the byte before the cursor. -/
def Twin (r r' : Cur × Int) : Prop :=
  ∃ (m : Bytes) (p : Nat) (x x' : UInt8), r.1 = ⟨m.set (p - 1) x, p⟩ ∧ r'.1 = ⟨m.set (p - 1) x', p⟩ ∧ r.2 = r'.2

theorem set_self (m : Bytes) (i : Nat) : ∃ x, m.set i x = m := by
  by_cases h : i < m.length
  · exact ⟨m[i], List.set_getElem_self h⟩
  · exact ⟨0, List.set_eq_of_length_le (by omega)⟩

theorem grisuRound_last {base : Nat} {delta ten wp : UInt64} : ∀ (n : Nat) {b c : Cur} {rest : UInt64},
    grisuRound base delta ten wp n b rest = .ok c → ∃ x, c = ⟨b.mem.set (b.pos - 1) x, b.pos⟩
  | 0, _, _, _, h => by cases h
  | n + 1, b, c, rest, h => by
    unfold grisuRound at h
    split at h
    · obtain ⟨d, h1, h2⟩ := bind_ok h
      obtain ⟨x, hx⟩ := grisuRound_last n h2
      unfold decLast at h1
      split at h1
      · split at h1
        · rw [← Res.ok.inj h1] at hx
          exact ⟨x, by rw [hx]; simp⟩
        · cases h1
      · cases h1
    · obtain ⟨x, hx⟩ := set_self b.mem (b.pos - 1)
      exact ⟨x, by rw [hx, ← Res.ok.inj h]⟩

theorem loop2_last {env env' : Env} {base : Nat} {sh : Int} {one wp : UInt64} {k : Int} : ∀ (n : Nat) {i : Nat} {b : Cur}
    {p2 delta : UInt64} {r r' : Cur × Int}, loop2 env base sh one wp k n i b p2 delta = .ok r →
    loop2 env' base sh one wp k n i b p2 delta = .ok r' → Twin r r'
  | 0, _, _, _, _, _, _, h, _ => by cases h
  | n + 1, i, b, p2, delta, r, r', h, h' => by
    unfold loop2 at h h'
    dsimp only at h h'
    obtain ⟨d, h1, h⟩ := bind_ok h
    rw [h1, Res.ok_bind] at h'
    obtain ⟨c, h2, h⟩ := bind_ok h
    rw [h2, Res.ok_bind] at h'
    split at h
    · rename_i hlt
      rw [if_pos hlt] at h'
      obtain ⟨w, -, h⟩ := bind_ok h
      obtain ⟨e, h4, h⟩ := bind_ok h
      obtain ⟨w', -, h'⟩ := bind_ok h'
      obtain ⟨e', h4', h'⟩ := bind_ok h'
      obtain ⟨x, hx⟩ := grisuRound_last _ h4
      obtain ⟨x', hx'⟩ := grisuRound_last _ h4'
      rw [← Res.ok.inj h, ← Res.ok.inj h']
      exact ⟨c.mem, c.pos, x, x', hx, hx', rfl⟩
    · rename_i hlt
      rw [if_neg hlt] at h'
      exact loop2_last n h h'

theorem loop1_last {env env' : Env} {base : Nat} {sh : Int} {one wp p2 delta : UInt64} {k : Int} : ∀ (n : Nat) {b : Cur}
    {p1 : UInt32} {r r' : Cur × Int}, loop1 env base sh one wp p2 delta k n b p1 = .ok r →
    loop1 env' base sh one wp p2 delta k n b p1 = .ok r' → Twin r r'
  | 0, _, _, _, _, h, h' => loop2_last _ h h'
  | n + 1, b, p1, r, r', h, h' => by
    unfold loop1 at h h'
    dsimp only at h h'
    obtain ⟨d, h1, h⟩ := bind_ok h
    rw [h1, Res.ok_bind] at h'
    obtain ⟨c, h2, h⟩ := bind_ok h
    rw [h2, Res.ok_bind] at h'
    obtain ⟨s, h3, h⟩ := bind_ok h
    rw [h3, Res.ok_bind] at h'
    split at h
    · rename_i hlt
      rw [if_pos hlt] at h'
      obtain ⟨w, -, h⟩ := bind_ok h
      obtain ⟨v, -, h⟩ := bind_ok h
      obtain ⟨e, h4, h⟩ := bind_ok h
      obtain ⟨w', -, h'⟩ := bind_ok h'
      obtain ⟨v', -, h'⟩ := bind_ok h'
      obtain ⟨e', h4', h'⟩ := bind_ok h'
      obtain ⟨x, hx⟩ := grisuRound_last _ h4
      obtain ⟨x', hx'⟩ := grisuRound_last _ h4'
      rw [← Res.ok.inj h, ← Res.ok.inj h']
      exact ⟨c.mem, c.pos, x, x', hx, hx', rfl⟩
    · rename_i hlt
      rw [if_neg hlt] at h'
      exact loop1_last n h h'

theorem grisu2_last {env env' : Env} (h : DkOk env.dk) (h' : DkOk env'.dk) (u : UInt64) (hfin : DFinite u) (hnz : ¬ DZero u)
    {b : Cur} {r r' : Cur × Int} (hr : grisu2 env u b = .ok r) (hr' : grisu2 env' u b = .ok r') : Twin r r' := by
  rw [grisu2_congr (env := env) (env' := ⟨env'.v, env'.dk, env.oob⟩) rfl h h' u hfin hnz b] at hr
  unfold grisu2 generateDigits at hr hr'
  dsimp only at hr hr'
  obtain ⟨_, h1, hr⟩ := bind_ok hr
  rw [h1, Res.ok_bind] at hr'
  obtain ⟨_, h1, hr⟩ := bind_ok hr
  rw [show getCachedPower env' = getCachedPower ⟨env'.v, env'.dk, env.oob⟩ from rfl, h1, Res.ok_bind] at hr'
  obtain ⟨_, h1, hr⟩ := bind_ok hr
  rw [h1, Res.ok_bind] at hr'
  obtain ⟨_, h1, hr⟩ := bind_ok hr
  rw [h1, Res.ok_bind] at hr'
  obtain ⟨_, h1, hr⟩ := bind_ok hr
  rw [h1, Res.ok_bind] at hr'
  exact loop1_last _ hr hr'

/-- Digit strings of the same length that agree before the last digit. -/
theorem twin_digits {ds ds' : Bytes} {k k' : Int} (hne : ds ≠ []) (hne' : ds' ≠ []) {M : Bytes}
    (h : Twin (at_ M 0 ds, k) (at_ M 0 ds', k')) :
    k = k' ∧ ∃ p c c', ds = p ++ [c] ∧ ds' = p ++ [c'] := by
  obtain ⟨m, q, x, x', h1, h2, h3⟩ := h
  refine ⟨h3, ds.dropLast, ds.getLast hne, ds'.getLast hne', (List.dropLast_append_getLast hne).symm, ?_⟩
  simp only [at_, Nat.zero_add, List.take_zero, List.nil_append, Cur.mk.injEq] at h1 h2
  obtain ⟨h1, e1⟩ := h1
  obtain ⟨h2, e2⟩ := h2
  have e : ds.dropLast = ds'.dropLast := by
    apply List.ext_getElem?
    intro i
    rw [List.getElem?_dropLast, List.getElem?_dropLast, e1, e2]
    split
    · rename_i hi
      have a1 := congrArg (·[i]?) h1
      have a2 := congrArg (·[i]?) h2
      rw [List.getElem?_append_left (by omega), List.getElem?_set_ne (by omega)] at a1 a2
      rw [a1, a2]
    · rfl
  rw [e]
  exact (List.dropLast_append_getLast hne').symm

/-- What can follow the last digit: padding zeros and `.0`, nothing, or the exponent. -/
def Tail (B : Bytes) : Prop :=
  (∃ n, B = List.replicate n 48 ++ [46, 48]) ∨ B = [] ∨ ∃ e, B = 101 :: decimalText e

theorem prettyText_last (p : Bytes) (k : Int) :
    ∃ A B, Tail B ∧ ∀ c, prettyText (p ++ [c]) k = A ++ c :: B := by
  unfold prettyText
  simp only [List.length_append, List.length_singleton]
  split
  · refine ⟨p, _, Or.inl ⟨((p.length + 1 : Nat) + k - (p.length + 1 : Nat)).toNat, rfl⟩, fun c => ?_⟩
    simp only [List.append_assoc, List.cons_append, List.nil_append]
  · split
    · rename_i h1 h2
      have hk : ((p.length + 1 : Nat) + k).toNat ≤ p.length := by omega
      refine ⟨p.take ((p.length + 1 : Nat) + k).toNat ++ 46 :: p.drop ((p.length + 1 : Nat) + k).toNat, [],
        Or.inr (Or.inl rfl), fun c => ?_⟩
      rw [List.take_append_of_le_length hk, List.drop_append_of_le_length hk]
      simp only [List.append_assoc, List.cons_append]
    · split
      · exact ⟨48 :: 46 :: (List.replicate _ 48 ++ p), [], Or.inr (Or.inl rfl), fun c => by
          simp only [List.append_assoc, List.cons_append]; rfl⟩
      · split
        · exact ⟨p, _, Or.inr (Or.inr ⟨_, rfl⟩), fun c => by
            simp only [List.append_assoc, List.singleton_append]; rfl⟩
        · rename_i h
          refine ⟨p.take 1 ++ 46 :: p.drop 1, _, Or.inr (Or.inr ⟨(p.length + 1 : Nat) + k - 1, rfl⟩), fun c => ?_⟩
          rw [List.take_append_of_le_length (by omega), List.drop_append_of_le_length (by omega)]
          simp only [List.append_assoc, List.cons_append, List.nil_append]

theorem decN_last {D : Nat} {p : Bytes} {c : UInt8} (h : decN D = p ++ [c]) :
    c = dig (D % 10) ∧ (D < 10 ∧ p = [] ∨ 10 ≤ D ∧ p = decN (D / 10)) := by
  rw [decN] at h
  split at h
  · rename_i hD
    have h : [] ++ [dig D] = p ++ [c] := h
    have := List.append_inj' h rfl
    rw [Nat.mod_eq_of_lt hD]
    exact ⟨(List.cons.inj this.2).1.symm, Or.inl ⟨hD, this.1.symm⟩⟩
  · have := List.append_inj' h rfl
    exact ⟨(List.cons.inj this.2).1.symm, Or.inr ⟨by omega, this.1.symm⟩⟩

theorem decN_twin {D D' : Nat} {p : Bytes} {c c' : UInt8} (h : decN D = p ++ [c]) (h' : decN D' = p ++ [c']) :
    D / 10 = D' / 10 := by
  rcases (decN_last h).2 with ⟨h1, h2⟩ | ⟨h1, h2⟩ <;> rcases (decN_last h').2 with ⟨h3, h4⟩ | ⟨h3, h4⟩
  · omega
  · rw [h2] at h4; exact absurd h4.symm (decN_ne_nil _)
  · rw [h4] at h2; exact absurd h2.symm (decN_ne_nil _)
  · rw [h2] at h4; exact decN_injective h4

/-- The digits of one double on two platforms. -/
theorem digits_twin {env env' : Env} (h : DkOk env.dk) (h' : DkOk env'.dk) {u : UInt64} (hfin : DFinite u)
    (hnz : ¬ DZero u) {D D' : Nat} {k k' : Int}
    (hg : ∀ M base, base + 17 ≤ M.length → grisu2 env u ⟨M, base⟩ = .ok (at_ M base (decN D), k))
    (hg' : ∀ M base, base + 17 ≤ M.length → grisu2 env' u ⟨M, base⟩ = .ok (at_ M base (decN D'), k')) :
    k = k' ∧ ∃ p c c', decN D = p ++ [c] ∧ decN D' = p ++ [c'] :=
  twin_digits (decN_ne_nil _) (decN_ne_nil _)
    (grisu2_last h h' u hfin hnz (hg (List.replicate 17 0) 0 (by decide)) (hg' (List.replicate 17 0) 0 (by decide)))

end Lexi.Dtoa
