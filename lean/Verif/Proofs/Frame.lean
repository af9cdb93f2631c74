import Verif.Proofs.Strict

/-!
# Formatting in a buffer of any size

A run in a buffer and a run in a longer one: either the first leaves its buffer or they do the same.
-/

namespace Lexi.Dtoa
open Spec

/-- The first computation is undefined, or the second does the same up to `φ`. -/
def Sim {α β : Type} (φ : α → β) (r : Res α) (r' : Res β) : Prop := r = .ub ∨ r' = φ <$> r

theorem Sim.bind {α β γ δ : Type} {φ : α → β} {ψ : γ → δ} {r : Res α} {r' : Res β} {f : α → Res γ} {g : β → Res δ}
    (h : Sim φ r r') (hf : ∀ a, Sim ψ (f a) (g (φ a))) : Sim ψ (r >>= f) (r' >>= g) := by
  rcases h with rfl | rfl
  · left; rfl
  · cases r with
    | ok a => exact hf a
    | throws => right; rfl
    | ub => left; rfl

theorem Sim.ok {α β : Type} (φ : α → β) (a : α) : Sim φ (.ok a) (.ok (φ a)) := Or.inr rfl
theorem Sim.same {α : Type} (r : Res α) : Sim id r r := Or.inr (by cases r <;> rfl)

theorem Sim.ite {α β : Type} {φ : α → β} {p : Prop} [Decidable p] {r s : Res α} {r' s' : Res β}
    (h : Sim φ r r') (h' : Sim φ s s') : Sim φ (if p then r else s) (if p then r' else s') := by
  by_cases hp : p
  · rw [if_pos hp, if_pos hp]; exact h
  · rw [if_neg hp, if_neg hp]; exact h'

/-- The same cursor in a longer buffer. -/
def grow (T : Bytes) (b : Cur) : Cur := ⟨b.mem ++ T, b.pos⟩
def growK (T : Bytes) (r : Cur × Int) : Cur × Int := (grow T r.1, r.2)
def growM (T : Bytes) (m : Bytes) : Bytes := m ++ T

theorem set_append_short {m T : Bytes} {i : Nat} (c : UInt8) (h : i < m.length) : (m ++ T).set i c = m.set i c ++ T := by
  rw [List.set_append, if_pos h]

theorem put_sim (T : Bytes) (b : Cur) (c : UInt8) : Sim (grow T) (b.put c) ((grow T b).put c) := by
  unfold Cur.put
  by_cases h : b.pos < b.mem.length
  · right
    rw [if_pos h, if_pos (by simp [grow]; omega)]
    simp only [grow, Res.map_ok, set_append_short c h]
  · left; rw [if_neg h]

theorem decLast_sim (T : Bytes) (base : Nat) (b : Cur) : Sim (grow T) (decLast base b) (decLast base (grow T b)) := by
  unfold decLast
  refine Sim.ite ?_ (Or.inl rfl)
  by_cases h : b.pos - 1 < b.mem.length
  · right
    have e : (grow T b).mem[(grow T b).pos - 1]? = b.mem[b.pos - 1]? := by
      simp only [grow]; rw [List.getElem?_append_left h]
    rw [e, List.getElem?_eq_getElem h]
    simp only [grow, Res.map_ok, set_append_short _ h]
  · left
    rw [List.getElem?_eq_none (by omega)]

theorem grisuRound_sim (T : Bytes) (base : Nat) (delta ten wp : UInt64) (n : Nat) : ∀ (b : Cur) (rest : UInt64),
    Sim (grow T) (grisuRound base delta ten wp n b rest) (grisuRound base delta ten wp n (grow T b) rest) := by
  induction n with
  | zero => exact fun _ _ => Or.inl rfl
  | succ n ih =>
    intro b rest
    unfold grisuRound
    exact Sim.ite ((decLast_sim T base b).bind fun c => ih c _) (Sim.ok _ _)

theorem putDigit_sim (T : Bytes) (base : Nat) (b : Cur) (d : UInt8) :
    Sim (grow T) (putDigit base b d) (putDigit base (grow T b) d) := by
  unfold putDigit
  exact Sim.ite (put_sim T b _) (Sim.ok _ _)

theorem loop2_sim (T : Bytes) (env : Env) (base : Nat) (sh : Int) (one wp : UInt64) (k : Int) (n : Nat) :
    ∀ (i : Nat) (b : Cur) (p2 delta : UInt64),
    Sim (growK T) (loop2 env base sh one wp k n i b p2 delta) (loop2 env base sh one wp k n i (grow T b) p2 delta) := by
  induction n with
  | zero => exact fun _ _ _ _ => Or.inl rfl
  | succ n ih =>
    intro i b p2 delta
    unfold loop2
    dsimp only
    refine (Sim.same _).bind fun d => ?_
    refine (putDigit_sim T base b _).bind fun c => ?_
    refine Sim.ite ?_ (ih _ c _ _)
    refine (Sim.same _).bind fun w => ?_
    exact (grisuRound_sim T base _ _ _ _ c _).bind fun c => Or.inr rfl

theorem loop1_sim (T : Bytes) (env : Env) (base : Nat) (sh : Int) (one wp p2 delta : UInt64) (k : Int) (n : Nat) :
    ∀ (b : Cur) (p1 : UInt32),
    Sim (growK T) (loop1 env base sh one wp p2 delta k n b p1) (loop1 env base sh one wp p2 delta k n (grow T b) p1) := by
  induction n with
  | zero => exact fun b _ => loop2_sim T env base sh one wp k _ _ b _ _
  | succ n ih =>
    intro b p1
    unfold loop1
    dsimp only
    refine (Sim.same _).bind fun dv => ?_
    refine (putDigit_sim T base b _).bind fun c => ?_
    refine (Sim.same _).bind fun d => ?_
    refine Sim.ite ?_ (ih c _)
    refine (Sim.same _).bind fun w => ?_
    refine (Sim.same _).bind fun w => ?_
    exact (grisuRound_sim T base _ _ _ _ c _).bind fun c => Or.inr rfl

theorem grisu2_sim (T : Bytes) (env : Env) (u : UInt64) (b : Cur) :
    Sim (growK T) (grisu2 env u b) (grisu2 env u (grow T b)) := by
  unfold grisu2 generateDigits
  dsimp only
  refine (Sim.same _).bind fun _ => ?_
  refine (Sim.same _).bind fun _ => ?_
  refine (Sim.same _).bind fun _ => ?_
  refine (Sim.same _).bind fun _ => ?_
  refine (Sim.same _).bind fun _ => ?_
  exact loop1_sim T env b.pos _ _ _ _ _ _ _ b _

theorem wr_sim (T : Bytes) (m : Bytes) (base : Nat) (i : Int) (c : UInt8) :
    Sim (growM T) (wr m base i c) (wr (growM T m) base i c) := by
  unfold wr
  by_cases h : 0 ≤ (base : Int) + i ∧ (base : Int) + i < m.length
  · right
    rw [if_pos h, if_pos (by simp [growM]; omega)]
    simp only [growM, Res.map_ok]
    rw [set_append_short c (by omega)]
  · left; rw [if_neg h]

theorem fillZero_sim (T : Bytes) (base : Nat) (n : Nat) : ∀ (m : Bytes) (a : Int),
    Sim (growM T) (fillZero m base a n) (fillZero (growM T m) base a n) := by
  induction n with
  | zero => exact fun m _ => Sim.ok _ m
  | succ n ih =>
    intro m a
    unfold fillZero
    exact (wr_sim T m base a 48).bind fun c => ih c _

theorem memmove_sim (T : Bytes) (m : Bytes) (base : Nat) (dst src n : Int) :
    Sim (growM T) (memmove m base dst src n) (memmove (growM T m) base dst src n) := by
  unfold memmove
  split
  · rename_i h
    right
    rw [if_pos (by simp [growM]; omega)]
    simp only [growM, Res.map_ok]
    congr 1
    rw [List.take_append_of_le_length (by omega), List.drop_append_of_le_length (by omega),
      List.take_append_of_le_length (by simp; omega), List.drop_append_of_le_length (by omega)]
    simp
  · left; rfl

theorem writeExponent_sim (T : Bytes) (k : Int) (b : Cur) :
    Sim (grow T) (writeExponent k b) (writeExponent k (grow T b)) := by
  unfold writeExponent
  dsimp only
  have fin : ∀ c : Cur, Sim (grow T) (c.put 0 >>= fun e => pure ⟨e.mem, c.pos⟩)
      ((grow T c).put 0 >>= fun e => pure ⟨e.mem, (grow T c).pos⟩) := fun c => (put_sim T c _).bind fun e => Or.inr rfl
  have two : ∀ (c : Cur) (i j : Int), Sim (grow T)
      (digitAt i >>= fun d => c.put d >>= fun c => digitAt j >>= fun d => c.put d >>= fun c =>
        c.put 0 >>= fun e => pure ⟨e.mem, c.pos⟩)
      (digitAt i >>= fun d => (grow T c).put d >>= fun c => digitAt j >>= fun d => c.put d >>= fun c =>
        c.put 0 >>= fun e => pure ⟨e.mem, c.pos⟩) := by
    intro c i j
    refine (Sim.same _).bind fun d => ?_
    refine (put_sim T _ _).bind fun c => ?_
    refine (Sim.same _).bind fun d => ?_
    exact (put_sim T _ _).bind fin
  refine Sim.ite ((put_sim T b _).bind fun c => ?_) ?_
  · simp only [Res.pure_eq, Res.ok_bind]
    exact Sim.ite ((put_sim T _ _).bind fun c => two c _ _) (Sim.ite (two c _ _) ((put_sim T _ _).bind fin))
  · simp only [Res.pure_eq, Res.ok_bind]
    exact Sim.ite ((put_sim T _ _).bind fun c => two c _ _) (Sim.ite (two b _ _) ((put_sim T _ _).bind fin))

theorem prettify_sim (T : Bytes) (m : Bytes) (base : Nat) (length k : Int) :
    Sim (grow T) (prettify m base length k) (prettify (growM T m) base length k) := by
  unfold prettify
  dsimp only
  refine Sim.ite ?_ (Sim.ite ?_ (Sim.ite ?_ (Sim.ite ?_ ?_)))
  · refine (fillZero_sim T base _ m _).bind fun m => ?_
    refine (wr_sim T m base _ _).bind fun m => ?_
    refine (wr_sim T m base _ _).bind fun m => ?_
    exact (wr_sim T m base _ _).bind fun m => Or.inr rfl
  · refine (memmove_sim T m base _ _ _).bind fun m => ?_
    refine (wr_sim T m base _ _).bind fun m => ?_
    exact (wr_sim T m base _ _).bind fun m => Or.inr rfl
  · refine (memmove_sim T m base _ _ _).bind fun m => ?_
    refine (wr_sim T m base _ _).bind fun m => ?_
    refine (wr_sim T m base _ _).bind fun m => ?_
    refine (fillZero_sim T base _ m _).bind fun m => ?_
    exact (wr_sim T m base _ _).bind fun m => Or.inr rfl
  · refine (wr_sim T m base _ _).bind fun m => ?_
    exact writeExponent_sim T _ ⟨m, base + 2⟩
  · refine (memmove_sim T m base _ _ _).bind fun m => ?_
    refine (wr_sim T m base _ _).bind fun m => ?_
    refine (wr_sim T m base _ _).bind fun m => ?_
    exact writeExponent_sim T _ ⟨m, _⟩

theorem dtoa_sim (T : Bytes) (env : Env) (u : UInt64) (b : Cur) : Sim (grow T) (dtoa env u b) (dtoa env u (grow T b)) := by
  unfold dtoa
  refine Sim.ite ?_ ?_
  · refine (put_sim T b _).bind fun c => ?_
    refine (put_sim T c _).bind fun c => ?_
    refine (put_sim T c _).bind fun c => ?_
    exact (put_sim T c _).bind fun e => Or.inr rfl
  · dsimp only
    refine Sim.ite ((put_sim T b _).bind fun c => ?_) ?_
    · simp only [Res.pure_eq, Res.ok_bind]
      exact (grisu2_sim T env _ c).bind fun r => prettify_sim T r.1.mem c.pos _ _
    · simp only [Res.pure_eq, Res.ok_bind]
      exact (grisu2_sim T env _ b).bind fun r => prettify_sim T r.1.mem b.pos _ _

/-! ### Enough room for the digits is enough room to make them -/

theorem decLast_pos {base : Nat} {b c : Cur} (h : decLast base b = .ok c) : c.pos = b.pos := by
  unfold decLast at h
  split at h
  · split at h
    · rw [← Res.ok.inj h]
    · cases h
  · cases h

theorem grisuRound_pos {base : Nat} {delta ten wp : UInt64} : ∀ (n : Nat) {b c : Cur} {rest : UInt64},
    grisuRound base delta ten wp n b rest = .ok c → c.pos = b.pos
  | 0, _, _, _, h => by cases h
  | n + 1, b, c, rest, h => by
    unfold grisuRound at h
    split at h
    · obtain ⟨d, h1, h2⟩ := bind_ok h
      rw [grisuRound_pos n h2, decLast_pos h1]
    · rw [← Res.ok.inj h]

theorem putDigit_pos {base : Nat} {b c : Cur} {d : UInt8} (h : putDigit base b d = .ok c) : b.pos ≤ c.pos := by
  unfold putDigit Cur.put at h
  split at h
  · split at h
    · rw [← Res.ok.inj h]; simp
    · cases h
  · rw [← Res.ok.inj h]

theorem loop2_pos {env : Env} {base : Nat} {sh : Int} {one wp : UInt64} {k : Int} : ∀ (n : Nat) {i : Nat} {b : Cur}
    {p2 delta : UInt64} {r : Cur × Int}, loop2 env base sh one wp k n i b p2 delta = .ok r → b.pos ≤ r.1.pos
  | 0, _, _, _, _, _, h => by cases h
  | n + 1, i, b, p2, delta, r, h => by
    unfold loop2 at h
    dsimp only at h
    obtain ⟨d, h1, h⟩ := bind_ok h
    obtain ⟨c, h2, h⟩ := bind_ok h
    have := putDigit_pos h2
    split at h
    · obtain ⟨w, h3, h⟩ := bind_ok h
      obtain ⟨e, h4, h⟩ := bind_ok h
      rw [← Res.ok.inj h]
      have := grisuRound_pos _ h4
      dsimp only
      omega
    · have := loop2_pos n h
      omega

theorem loop1_pos {env : Env} {base : Nat} {sh : Int} {one wp p2 delta : UInt64} {k : Int} : ∀ (n : Nat) {b : Cur}
    {p1 : UInt32} {r : Cur × Int}, loop1 env base sh one wp p2 delta k n b p1 = .ok r → b.pos ≤ r.1.pos
  | 0, _, _, _, h => loop2_pos _ h
  | n + 1, b, p1, r, h => by
    unfold loop1 at h
    dsimp only at h
    obtain ⟨d, h1, h⟩ := bind_ok h
    obtain ⟨c, h2, h⟩ := bind_ok h
    obtain ⟨s, h5, h⟩ := bind_ok h
    have := putDigit_pos h2
    split at h
    · obtain ⟨w, h3, h⟩ := bind_ok h
      obtain ⟨w', h3', h⟩ := bind_ok h
      obtain ⟨e, h4, h⟩ := bind_ok h
      rw [← Res.ok.inj h]
      have := grisuRound_pos _ h4
      dsimp only
      omega
    · have := loop1_pos n h
      omega

/-- A long run that ends inside the short buffer was possible there. -/
theorem put_room {T : Bytes} {b : Cur} {c : UInt8} {e : Cur} (h : (grow T b).put c = .ok e) (hp : e.pos ≤ b.mem.length) :
    ∃ d, b.put c = .ok d ∧ e = grow T d := by
  rcases put_sim T b c with h1 | h1
  · exfalso
    unfold Cur.put at h h1
    split at h
    · rw [← Res.ok.inj h] at hp
      rw [if_pos (by simp [grow] at hp; omega)] at h1
      cases h1
    · cases h
  · rw [h] at h1
    cases hb : b.put c with
    | ok d => rw [hb] at h1; exact ⟨d, rfl, Res.ok.inj h1⟩
    | throws => rw [hb] at h1; cases h1
    | ub => rw [hb] at h1; cases h1

theorem put_len {b d : Cur} {c : UInt8} (h : b.put c = .ok d) : d.mem.length = b.mem.length := by
  unfold Cur.put at h
  split at h
  · rw [← Res.ok.inj h]; simp
  · cases h

theorem putDigit_room {T : Bytes} {base : Nat} {b e : Cur} {d : UInt8} (h : putDigit base (grow T b) d = .ok e)
    (hp : e.pos ≤ b.mem.length) : ∃ c, putDigit base b d = .ok c ∧ e = grow T c ∧ c.mem.length = b.mem.length := by
  unfold putDigit at h ⊢
  by_cases hc : d ≠ 0 ∨ b.pos - base ≠ 0
  · rw [if_pos (show d ≠ 0 ∨ (grow T b).pos - base ≠ 0 from hc)] at h
    rw [if_pos hc]
    obtain ⟨c, h1, h2⟩ := put_room h hp
    exact ⟨c, h1, h2, put_len h1⟩
  · rw [if_neg (show ¬ (d ≠ 0 ∨ (grow T b).pos - base ≠ 0) from hc)] at h
    rw [if_neg hc]
    exact ⟨b, rfl, (Res.ok.inj h).symm, rfl⟩

theorem grisuRound_room {T : Bytes} {base : Nat} {delta ten wp : UInt64} : ∀ (n : Nat) {b e : Cur} {rest : UInt64},
    grisuRound base delta ten wp n (grow T b) rest = .ok e → b.pos ≤ b.mem.length →
    grisuRound base delta ten wp n b rest ≠ .ub
  | 0, _, _, _, h, _ => by cases h
  | n + 1, b, e, rest, h, hp => by
    unfold grisuRound at h ⊢
    split
    · rename_i hc
      rw [if_pos hc] at h
      obtain ⟨c, h1, h2⟩ := bind_ok h
      obtain ⟨d, h3, h4, h5⟩ : ∃ d, decLast base b = .ok d ∧ c = grow T d ∧ d.mem.length = b.mem.length := by
        unfold decLast at h1 ⊢
        by_cases hb : base < b.pos
        · rw [if_pos (show base < (grow T b).pos from hb)] at h1
          rw [if_pos hb]
          have hlt : b.pos - 1 < b.mem.length := by omega
          have e : (grow T b).mem[(grow T b).pos - 1]? = b.mem[b.pos - 1]? := by
            simp only [grow]; rw [List.getElem?_append_left hlt]
          rw [e, List.getElem?_eq_getElem hlt] at h1
          rw [List.getElem?_eq_getElem hlt]
          refine ⟨_, rfl, ?_, by simp⟩
          rw [← Res.ok.inj h1]
          simp only [grow, set_append_short _ hlt]
        · rw [if_neg (show ¬ base < (grow T b).pos from hb)] at h1
          cases h1
      rw [h3, Res.ok_bind]
      rw [h4] at h2
      exact grisuRound_room n h2 (by rw [h5, decLast_pos h3]; exact hp)
    · simp

theorem loop2_room {T : Bytes} {env : Env} {base : Nat} {sh : Int} {one wp : UInt64} {k : Int} : ∀ (n : Nat) {i : Nat} {b : Cur}
    {p2 delta : UInt64} {r : Cur × Int}, loop2 env base sh one wp k n i (grow T b) p2 delta = .ok r →
    r.1.pos ≤ b.mem.length → loop2 env base sh one wp k n i b p2 delta ≠ .ub
  | 0, _, _, _, _, _, h, _ => by cases h
  | n + 1, i, b, p2, delta, r, h, hp => by
    have hpos := h
    unfold loop2 at h ⊢
    dsimp only at h ⊢
    obtain ⟨d, h1, h⟩ := bind_ok h
    rw [h1, Res.ok_bind]
    obtain ⟨c, h2, h⟩ := bind_ok h
    have hc : c.pos ≤ r.1.pos := by
      split at h
      · obtain ⟨w, h3, h⟩ := bind_ok h
        obtain ⟨e, h4, h⟩ := bind_ok h
        rw [← Res.ok.inj h]
        have := grisuRound_pos _ h4
        dsimp only
        omega
      · exact loop2_pos n h
    obtain ⟨c', h3, rfl, h5⟩ := putDigit_room h2 (by omega)
    rw [h3, Res.ok_bind]
    split at h
    · rename_i hlt
      rw [if_pos hlt]
      obtain ⟨w, h6, h⟩ := bind_ok h
      rw [h6, Res.ok_bind]
      obtain ⟨e, h7, h⟩ := bind_ok h
      have := grisuRound_room _ h7 (show c'.pos ≤ c'.mem.length by rw [h5]; exact le_trans hc hp)
      cases hg : grisuRound base (delta * 10) one (wp * w) ROUND_FUEL c' ((p2 * 10) &&& (one - 1)) with
      | ok a => simp
      | throws => simp
      | ub => exact absurd hg this
    · rename_i hlt
      rw [if_neg hlt]
      exact loop2_room n h (by rw [h5]; exact hp)

theorem loop1_room {T : Bytes} {env : Env} {base : Nat} {sh : Int} {one wp p2 delta : UInt64} {k : Int} : ∀ (n : Nat) {b : Cur}
    {p1 : UInt32} {r : Cur × Int}, loop1 env base sh one wp p2 delta k n (grow T b) p1 = .ok r →
    r.1.pos ≤ b.mem.length → loop1 env base sh one wp p2 delta k n b p1 ≠ .ub
  | 0, _, _, _, h, hp => loop2_room _ h hp
  | n + 1, b, p1, r, h, hp => by
    unfold loop1 at h ⊢
    dsimp only at h ⊢
    obtain ⟨d, h1, h⟩ := bind_ok h
    rw [h1, Res.ok_bind]
    obtain ⟨c, h2, h⟩ := bind_ok h
    obtain ⟨s, hs, h⟩ := bind_ok h
    have hc : c.pos ≤ r.1.pos := by
      split at h
      · obtain ⟨w, h3, h⟩ := bind_ok h
        obtain ⟨w', h3', h⟩ := bind_ok h
        obtain ⟨e, h4, h⟩ := bind_ok h
        rw [← Res.ok.inj h]
        have := grisuRound_pos _ h4
        dsimp only
        omega
      · exact loop1_pos n h
    obtain ⟨c', h3, rfl, h5⟩ := putDigit_room h2 (by omega)
    rw [h3, Res.ok_bind, hs, Res.ok_bind]
    split at h
    · rename_i hlt
      rw [if_pos hlt]
      obtain ⟨w, h6, h⟩ := bind_ok h
      rw [h6, Res.ok_bind]
      obtain ⟨w', h6', h⟩ := bind_ok h
      rw [h6', Res.ok_bind]
      obtain ⟨e, h7, h⟩ := bind_ok h
      have := grisuRound_room _ h7 (show c'.pos ≤ c'.mem.length by rw [h5]; exact le_trans hc hp)
      cases hg : grisuRound base delta w' wp ROUND_FUEL c' (s + p2) with
      | ok a => simp
      | throws => simp
      | ub => exact absurd hg this
    · rename_i hlt
      rw [if_neg hlt]
      exact loop1_room n h (by rw [h5]; exact hp)

theorem grisu2_room {T : Bytes} {env : Env} {u : UInt64} {b : Cur} {r : Cur × Int} (h : grisu2 env u (grow T b) = .ok r)
    (hp : r.1.pos ≤ b.mem.length) : grisu2 env u b ≠ .ub := by
  unfold grisu2 generateDigits at h ⊢
  dsimp only at h ⊢
  obtain ⟨_, h1, h⟩ := bind_ok h
  rw [h1, Res.ok_bind]
  obtain ⟨_, h1, h⟩ := bind_ok h
  rw [h1, Res.ok_bind]
  obtain ⟨_, h1, h⟩ := bind_ok h
  rw [h1, Res.ok_bind]
  obtain ⟨_, h1, h⟩ := bind_ok h
  rw [h1, Res.ok_bind]
  obtain ⟨_, h1, h⟩ := bind_ok h
  rw [h1, Res.ok_bind]
  exact loop1_room _ h hp

end Lexi.Dtoa
