import Verif.Model.Threads
import Verif.Proofs.Objects

/-!
# Lemmas for C110: actions of different threads do not disturb one another
-/

namespace Lexi.Objects
open Spec.History (Op)
open Spec.Threads

variable {α V : Type} {step : Heap α → Op V → Res (Heap α)} {read : Heap α → Nat → Res Bytes} {points : α → List Nat}

/-- The accesses are all there is: what an action does depends only on the objects it accesses, and it changes only those it
writes. -/
def Footprint (step : Heap α → Op V → Res (Heap α)) (read : Heap α → Nat → Res Bytes) (points : α → List Nat) : Prop :=
  ∀ (h k : Heap α) (a : Act V) (h' : Heap α) (o : List Bytes), (∀ i w, (i, w) ∈ accesses points h a → h i = k i) →
    act step read h a = .ok (h', o) →
    ∃ k', act step read k a = .ok (k', o) ∧ (∀ i, (i, true) ∈ accesses points h a → h' i = k' i) ∧
      ∀ i, (i, true) ∉ accesses points h a → h' i = h i ∧ k' i = k i

/-- Pointers come from the object itself or from the object copied. -/
def Traces (step : Heap α → Op V → Res (Heap α)) (read : Heap α → Nat → Res Bytes) (points : α → List Nat) : Prop :=
  ∀ (h : Heap α) (a : Act V) (h' : Heap α) (o : List Bytes), act step read h a = .ok (h', o) →
    ∀ x p, h' x = .live p → h x = .live p ∨ x ∈ a.changes ∧
      ∀ q ∈ points p, q = x ∨ ∃ y ∈ a.uses, ∃ r, h y = .live r ∧ q ∈ points r

/-- Pointers stay among the objects of the same owner and the shared ones. -/
def Closed (points : α → List Nat) (owner : Nat → Option Nat) (h : Heap α) : Prop :=
  ∀ x p, h x = .live p → ∀ q ∈ points p, owner q = owner x ∨ owner q = none

/-- Objects the thread may look at. -/
def Sees (owner : Nat → Option Nat) (t x : Nat) : Prop := owner x = some t ∨ owner x = none

variable {owner : Nat → Option Nat}

theorem written_changes {h : Heap α} {a : Act V} {i : Nat} (hi : (i, true) ∈ accesses points h a) : i ∈ a.changes := by
  cases a with
  | op o => cases o <;> simp [accesses, Act.changes] at hi ⊢ <;> assumption
  | read x =>
    exfalso
    simp only [accesses, List.mem_cons, Prod.mk.injEq, Bool.true_eq_false, and_false, false_or] at hi
    split at hi
    · obtain ⟨q, -, e⟩ := List.mem_map.mp hi
      injection e with _ e
      cases e
    · cases hi

theorem access_seen (h : Heap α) (hc : Closed points owner h) {t : Nat} {a : Act V} (ha : a.Allowed owner t) {i : Nat} {w : Bool}
    (hi : (i, w) ∈ accesses points h a) : Sees owner t i := by
  obtain ⟨h1, h2⟩ := ha
  cases a with
  | op o =>
    cases o <;> simp [accesses, Act.changes, Act.uses] at hi h1 h2
    case construct => exact .inl (hi.1 ▸ h1)
    case destroy => exact .inl (hi.1 ▸ h1)
    case copy =>
      rcases hi with ⟨rfl, -⟩ | ⟨rfl, -⟩
      · exact .inl h1
      · exact h2
    case assign =>
      rcases hi with ⟨rfl, -⟩ | ⟨rfl, -⟩
      · exact .inl h1
      · exact h2
  | read x =>
    have hx := h2 x (by simp [Act.uses])
    simp only [accesses, List.mem_cons, Prod.mk.injEq] at hi
    rcases hi with ⟨rfl, -⟩ | hi
    · exact hx
    · cases hh : h x with
      | live p =>
        rw [hh] at hi
        obtain ⟨q, hq, e⟩ := List.mem_map.mp hi
        injection e with e _
        subst e
        rcases hc x p hh q hq with h' | h'
        · unfold Sees; rw [h']; exact hx
        · exact .inr h'
      | unused => rw [hh] at hi; cases hi
      | dead => rw [hh] at hi; cases hi

theorem closed_act (ht : Traces step read points) {h h' : Heap α} {a : Act V} {o : List Bytes} (hc : Closed points owner h)
    {t : Nat} (ha : a.Allowed owner t) (e : act step read h a = .ok (h', o)) : Closed points owner h' := by
  intro x p hx q hq
  rcases ht h a h' o e x p hx with h1 | ⟨h1, h2⟩
  · exact hc x p h1 q hq
  · rcases h2 q hq with rfl | ⟨y, hy, r, hr, hq'⟩
    · exact .inl rfl
    · rw [ha.1 x h1]
      rcases hc y r hr q hq' with h' | h'
      · rw [h']; exact ha.2 y hy
      · exact .inr h'

/-- One action in two memories that agree on what its thread sees. -/
theorem act_sim (hf : Footprint step read points) {h k h' : Heap α} {a : Act V} {o : List Bytes} (hc : Closed points owner h)
    {t : Nat} (ha : a.Allowed owner t) (hk : ∀ i, Sees owner t i → h i = k i) (e : act step read h a = .ok (h', o)) :
    ∃ k', act step read k a = .ok (k', o) ∧ (∀ i, Sees owner t i → h' i = k' i) ∧
      ∀ i, i ∉ a.changes → h' i = h i ∧ k' i = k i := by
  obtain ⟨k', e', h1, h2⟩ := hf h k a h' o (fun i w hi => hk i (access_seen h hc ha hi)) e
  refine ⟨k', e', fun i hi => ?_, fun i hi => h2 i fun hw => hi (written_changes hw)⟩
  by_cases hw : (i, true) ∈ accesses points h a
  · exact h1 i hw
  · rw [(h2 i hw).1, (h2 i hw).2]; exact hk i hi

/-- The same from the thread's own memory to that of all. -/
theorem closed_congr {h k : Heap α} {t : Nat} (hk : ∀ i, Sees owner t i → h i = k i) (hc : Closed points owner h) :
    ∀ x p, Sees owner t x → k x = .live p → ∀ q ∈ points p, Sees owner t q := by
  intro x p hx hkx q hq
  rcases hc x p ((hk x hx).trans hkx) q hq with h' | h'
  · unfold Sees; rw [h']; exact hx
  · exact .inr h'

theorem act_sim' (hf : Footprint step read points) {h k k' : Heap α} {a : Act V} {o : List Bytes} (hc : Closed points owner h)
    {t : Nat} (ha : a.Allowed owner t) (hk : ∀ i, Sees owner t i → h i = k i) (e : act step read k a = .ok (k', o)) :
    ∃ h', act step read h a = .ok (h', o) ∧ (∀ i, Sees owner t i → h' i = k' i) ∧
      ∀ i, i ∉ a.changes → h' i = h i ∧ k' i = k i := by
  have hacc : ∀ i w, (i, w) ∈ accesses points k a → Sees owner t i := by
    intro i w hi
    refine access_seen h hc ha (w := w) ?_
    cases a with
    | op o => cases o <;> exact hi
    | read x =>
      have : h x = k x := hk x (ha.2 x (by simp [Act.uses]))
      simp only [accesses] at hi ⊢
      rw [this]; exact hi
  obtain ⟨h', e', h1, h2⟩ := hf k h a k' o (fun i w hi => (hk i (hacc i w hi)).symm) e
  refine ⟨h', e', fun i hi => ?_, fun i hi => (h2 i fun hw => hi (written_changes hw)).symm⟩
  by_cases hw : (i, true) ∈ accesses points k a
  · exact (h1 i hw).symm
  · rw [(h2 i hw).1, (h2 i hw).2]; exact hk i hi

/-- What the other threads see does not change. -/
theorem agree_others {h h' : Heap α} {H : Nat → Heap α} (hH : ∀ t i, Sees owner t i → h i = H t i) {t : Nat} {a : Act V}
    (ha : a.Allowed owner t) {k' : Heap α} (hk' : ∀ i, Sees owner t i → h' i = k' i) (hn : ∀ i, i ∉ a.changes → h' i = h i) :
    ∀ u i, Sees owner u i → h' i = (if u = t then k' else H u) i := by
  intro u i hi
  by_cases hu : u = t
  · subst hu; rw [if_pos rfl]; exact hk' i hi
  · rw [if_neg hu, hn i, hH u i hi]
    intro hc
    have := ha.1 i hc
    rcases hi with h1 | h1 <;> rw [this] at h1
    · injection h1 with h1; exact hu h1.symm
    · cases h1

theorem own_append {β : Type} (t : Nat) (a b : List (Nat × β)) : own t (a ++ b) = own t a ++ own t b := by
  induction a with
  | nil => rfl
  | cons x a ih =>
    obtain ⟨u, c⟩ := x
    simp only [List.cons_append, own]
    split <;> simp [ih]

theorem own_map_same {β : Type} (t : Nat) (a : List β) : own t (a.map fun b => (t, b)) = a := by
  induction a with
  | nil => rfl
  | cons x a ih => simp [own, ih]

theorem own_map_ne {β : Type} {t u : Nat} (hu : t ≠ u) (a : List β) : own u (a.map fun b => (t, b)) = [] := by
  induction a with
  | nil => rfl
  | cons x a ih => simp [own, ih, hu]

/-- All together against each alone, memory by memory. -/
theorem together_alone (hf : Footprint step read points) (ht : Traces step read points) (s : List (Nat × Act V)) :
    ∀ (h : Heap α) (H : Nat → Heap α), Closed points owner h → (∀ t i, Sees owner t i → h i = H t i) →
    (∀ e ∈ s, e.2.Allowed owner e.1) → ∀ h' os, together step read h s = .ok (h', os) →
    Closed points owner h' ∧ ∀ t, ∃ k', alone step read (H t) (own t s) = .ok (k', own t os) ∧ ∀ i, Sees owner t i → h' i = k' i := by
  induction s with
  | nil =>
    intro h H hc hH _ h' os e
    cases e
    exact ⟨hc, fun t => ⟨H t, rfl, hH t⟩⟩
  | cons x s ih =>
    obtain ⟨t, a⟩ := x
    intro h H hc hH hs h' os e
    have ha : a.Allowed owner t := hs (t, a) (by simp)
    rw [together] at e
    cases e1 : act step read h a with
    | throws => rw [e1] at e; cases e
    | ub => rw [e1] at e; cases e
    | ok r =>
      obtain ⟨h1, o⟩ := r
      rw [e1] at e
      dsimp only at e
      cases e2 : together step read h1 s with
      | throws => rw [e2] at e; cases e
      | ub => rw [e2] at e; cases e
      | ok r =>
        obtain ⟨h2, os2⟩ := r
        rw [e2] at e
        cases e
        obtain ⟨k1, ek, hk1, hn⟩ := act_sim hf hc ha (hH t) e1
        obtain ⟨hc2, hall⟩ := ih h1 (fun u => if u = t then k1 else H u) (closed_act ht hc ha e1)
          (agree_others hH ha hk1 fun i hi => (hn i hi).1) (fun e he => hs e (by simp [he])) _ _ e2
        refine ⟨hc2, fun u => ?_⟩
        obtain ⟨k', e3, hk'⟩ := hall u
        refine ⟨k', ?_, hk'⟩
        by_cases hu : t = u
        · subst hu
          rw [if_pos rfl] at e3
          simp only [own, if_true, alone, ek, e3, own_append, own_map_same]
        · rw [if_neg (fun h => hu h.symm)] at e3
          simp only [own, if_neg hu, e3, own_append, own_map_ne hu, List.nil_append]

/-- If each thread alone is defined, so are all together. -/
theorem together_defined (hf : Footprint step read points) (ht : Traces step read points) (s : List (Nat × Act V)) :
    ∀ (h : Heap α) (H : Nat → Heap α), Closed points owner h → (∀ t i, Sees owner t i → h i = H t i) →
    (∀ e ∈ s, e.2.Allowed owner e.1) → (∀ t, ∃ r, alone step read (H t) (own t s) = .ok r) →
    ∃ r, together step read h s = .ok r := by
  induction s with
  | nil => intro h H _ _ _ _; exact ⟨_, rfl⟩
  | cons x s ih =>
    obtain ⟨t, a⟩ := x
    intro h H hc hH hs hal
    have ha : a.Allowed owner t := hs (t, a) (by simp)
    obtain ⟨r, e⟩ := hal t
    simp only [own, if_true, alone] at e
    cases e1 : act step read (H t) a with
    | throws => rw [e1] at e; cases e
    | ub => rw [e1] at e; cases e
    | ok r1 =>
      obtain ⟨k1, o⟩ := r1
      rw [e1] at e
      dsimp only at e
      obtain ⟨h1, eh, hk1, hn⟩ := act_sim' hf hc ha (hH t) e1
      obtain ⟨r2, e2⟩ := ih h1 (fun u => if u = t then k1 else H u) (closed_act ht hc ha eh)
          (agree_others hH ha hk1 fun i hi => (hn i hi).1) (fun e he => hs e (by simp [he])) (by
        intro u
        by_cases hu : u = t
        · subst hu
          rw [if_pos rfl]
          cases e3 : alone step read k1 (own u s) with
          | throws => rw [e3] at e; cases e
          | ub => rw [e3] at e; cases e
          | ok r3 => exact ⟨_, rfl⟩
        · rw [if_neg hu]
          obtain ⟨r3, e3⟩ := hal u
          rw [own, if_neg (fun h => hu h.symm)] at e3
          exact ⟨r3, e3⟩)
      exact ⟨(r2.1, o.map (fun b => (t, b)) ++ r2.2), by rw [together, eh]; dsimp only; rw [e2]⟩

theorem together_closed (hf : Footprint step read points) (ht : Traces step read points) {s : List (Nat × Act V)} {h : Heap α}
    (hc : Closed points owner h) (hs : ∀ e ∈ s, e.2.Allowed owner e.1) {h' : Heap α} {os : List (Nat × Bytes)}
    (e : together step read h s = .ok (h', os)) : Closed points owner h' :=
  (together_alone hf ht s h (fun _ => h) hc (fun _ _ _ => rfl) hs h' os e).1

theorem no_race (hf : Footprint step read points) (ht : Traces step read points) {s : List (Nat × Act V)} {h : Heap α}
    (hc : Closed points owner h) (hs : ∀ e ∈ s, e.2.Allowed owner e.1) : ¬ Race step read points h s := by
  rintro ⟨s₁, s₂, s₃, t, u, a, b, h₁, h₂, o₁, o₂, x, v, w, rfl, htu, e1, e2, ha, hb, hvw⟩
  have hA : a.Allowed owner t := hs (t, a) (by simp)
  have hB : b.Allowed owner u := hs (u, b) (by simp)
  have c1 := together_closed hf ht hc (fun e he => hs e (by simp [he])) e1
  have c2 := together_closed (s := s₁ ++ (t, a) :: s₂) hf ht hc (fun e he => hs e (by
    simp only [List.mem_append, List.mem_cons] at he ⊢
    rcases he with h | h | h
    · exact .inl h
    · exact .inr (.inl h)
    · exact .inr (.inr (.inl h)))) e2
  have s1 := access_seen h₁ c1 hA ha
  have s2 := access_seen h₂ c2 hB hb
  have key : owner x = some t ∨ owner x = some u := by
    rcases hvw with rfl | rfl
    · exact .inl (hA.1 x (written_changes ha))
    · exact .inr (hB.1 x (written_changes hb))
  unfold Sees at s1 s2
  rcases key with h' | h' <;> rw [h'] at s1 s2
  · rcases s2 with h2 | h2
    · injection h2 with h2; exact htu h2
    · cases h2
  · rcases s1 with h2 | h2
    · injection h2 with h2; exact htu h2.symm
    · cases h2

/-! ## The classes of the library -/

theorem footprint_op {o : Op V} {x : Nat} {rest : List (Nat × Bool)} (h k h' : Heap α) {os : List Bytes}
    (hacc : accesses points h (.op o) = (x, true) :: rest) (hrest : ∀ i, (i, true) ∉ rest)
    (hk : ∃ s, step h o = .ok (h.set x s) ∧ step k o = .ok (k.set x s)) (e : act step read h (.op o) = .ok (h', os)) :
    ∃ k', act step read k (.op o) = .ok (k', os) ∧ (∀ i, (i, true) ∈ accesses points h (.op o) → h' i = k' i) ∧
      ∀ i, (i, true) ∉ accesses points h (.op o) → h' i = h i ∧ k' i = k i := by
  obtain ⟨s, e1, e2⟩ := hk
  simp only [act, e1] at e
  cases e
  refine ⟨k.set x s, by simp only [act, e2], ?_, ?_⟩
  · intro i hi
    rw [hacc] at hi
    rcases List.mem_cons.mp hi with h' | h'
    · injection h' with h' _
      subst h'
      simp
    · exact absurd h' (hrest i)
  · intro i hi
    have : i ≠ x := fun h' => hi (by rw [hacc, h']; simp)
    exact ⟨heap_set_ne _ _ this, heap_set_ne _ _ this⟩

theorem footprint_of {read : Heap α → Nat → Res Bytes}
    (hconstruct : ∀ h k x junk (v : V) h', h x = k x → step h (.construct x junk v) = .ok h' →
      ∃ s, h' = h.set x s ∧ step k (.construct x junk v) = .ok (k.set x s))
    (hcopy : ∀ h k x y h', h x = k x → h y = k y → step h (.copy x y) = .ok h' →
      ∃ s, h' = h.set x s ∧ step k (.copy x y) = .ok (k.set x s))
    (hassign : ∀ h k x y h', h x = k x → h y = k y → step h (.assign x y) = .ok h' →
      ∃ s, h' = h.set x s ∧ step k (.assign x y) = .ok (k.set x s))
    (hdestroy : ∀ h k x h', h x = k x → step h (.destroy x) = .ok h' →
      ∃ s, h' = h.set x s ∧ step k (.destroy x) = .ok (k.set x s))
    (hread : ∀ h k x, h x = k x → (∀ p, h x = .live p → ∀ q ∈ points p, h q = k q) → read h x = read k x) :
    Footprint step read points := by
  intro h k a h' os hk e
  cases a with
  | op o =>
    have e0 : step h o = .ok h' := by
      simp only [act] at e
      cases e1 : step h o <;> rw [e1] at e <;> cases e
      rfl
    cases o with
    | construct x junk v =>
      obtain ⟨s, rfl, e2⟩ := hconstruct h k x junk v h' (hk x true (by simp [accesses])) e0
      exact footprint_op h k _ rfl (by simp) ⟨s, e0, e2⟩ e
    | copy x y =>
      obtain ⟨s, rfl, e2⟩ := hcopy h k x y h' (hk x true (by simp [accesses])) (hk y false (by simp [accesses])) e0
      exact footprint_op h k _ rfl (by simp) ⟨s, e0, e2⟩ e
    | assign x y =>
      obtain ⟨s, rfl, e2⟩ := hassign h k x y h' (hk x true (by simp [accesses])) (hk y false (by simp [accesses])) e0
      exact footprint_op h k _ rfl (by simp) ⟨s, e0, e2⟩ e
    | destroy x =>
      obtain ⟨s, rfl, e2⟩ := hdestroy h k x h' (hk x true (by simp [accesses])) e0
      exact footprint_op h k _ rfl (by simp) ⟨s, e0, e2⟩ e
  | read x =>
    have e1 : read h x = read k x := hread h k x (hk x false (by simp [accesses])) (fun p hp q hq =>
      hk q false (by simp only [accesses, hp, List.mem_cons]; exact .inr (List.mem_map_of_mem hq)))
    have hw : ∀ i, (i, true) ∉ accesses (V := V) points h (.read x) := fun i hi => by
      have := written_changes hi
      simp [Act.changes] at this
    simp only [act, ← e1] at e ⊢
    cases e2 : read h x with
    | throws => rw [e2] at e; cases e
    | ub => rw [e2] at e; cases e
    | ok b =>
      rw [e2] at e
      cases e
      exact ⟨k, rfl, fun i hi => absurd hi (hw i), fun i _ => ⟨rfl, rfl⟩⟩

section
variable (mk : Nat → Bytes → V → Res α)

theorem step_construct (h k : Heap α) (x : Nat) (junk : Bytes) (v : V) (h' : Heap α) (hx : h x = k x)
    (e : Objects.step mk h (.construct x junk v) = .ok h') :
    ∃ s, h' = h.set x s ∧ Objects.step mk k (.construct x junk v) = .ok (k.set x s) := by
  simp only [Objects.step, ← hx] at e ⊢
  cases h1 : h x <;> rw [h1] at e <;> dsimp only at e ⊢
  · cases h2 : mk x junk v <;> rw [h2] at e <;> cases e
    exact ⟨_, rfl, rfl⟩
  all_goals cases e

theorem step_copy (h k : Heap α) (x y : Nat) (h' : Heap α) (hx : h x = k x) (hy : h y = k y)
    (e : Objects.step mk h (.copy x y : Op V) = .ok h') :
    ∃ s, h' = h.set x s ∧ Objects.step mk k (.copy x y) = .ok (k.set x s) := by
  simp only [Objects.step, ← hx, ← hy] at e ⊢
  cases h1 : h x <;> cases h2 : h y <;> rw [h1, h2] at e <;> dsimp only at e ⊢ <;> cases e
  exact ⟨_, rfl, rfl⟩

theorem step_assign (h k : Heap α) (x y : Nat) (h' : Heap α) (hx : h x = k x) (hy : h y = k y)
    (e : Objects.step mk h (.assign x y : Op V) = .ok h') :
    ∃ s, h' = h.set x s ∧ Objects.step mk k (.assign x y) = .ok (k.set x s) := by
  simp only [Objects.step, ← hx, ← hy] at e ⊢
  cases h1 : h x <;> cases h2 : h y <;> rw [h1, h2] at e <;> dsimp only at e ⊢ <;> cases e
  exact ⟨_, rfl, rfl⟩

theorem step_destroy (h k : Heap α) (x : Nat) (h' : Heap α) (hx : h x = k x)
    (e : Objects.step mk h (.destroy x : Op V) = .ok h') :
    ∃ s, h' = h.set x s ∧ Objects.step mk k (.destroy x) = .ok (k.set x s) := by
  simp only [Objects.step, ← hx] at e ⊢
  cases h1 : h x <;> rw [h1] at e <;> dsimp only at e ⊢ <;> cases e
  exact ⟨_, rfl, rfl⟩

/-- Objects whose `string()` uses their own members only. -/
theorem plain_footprint (rd : α → Res Bytes) : Footprint (Objects.step mk) (plainRead rd) (fun _ => []) :=
  footprint_of (step_construct mk) (step_copy mk) (step_assign mk) (step_destroy mk)
    (fun h k x hx _ => by simp only [plainRead, hx])

theorem plain_traces (rd : α → Res Bytes) : Traces (Objects.step mk) (plainRead rd) (fun _ => []) := by
  intro h a h' o e x p hx
  by_cases hc : x ∈ a.changes
  · exact .inr ⟨hc, fun q hq => by cases hq⟩
  · obtain ⟨_, -, -, h2⟩ := plain_footprint mk rd h h a h' o (fun _ _ _ => rfl) e
    rw [(h2 x fun hw => hc (written_changes hw)).1] at hx
    exact .inl hx

end

section
variable (mk : Nat → Bytes → V → Res PtrObj)

theorem ptrRead_congr (h k : Heap PtrObj) (x : Nat) (hx : h x = k x)
    (hp : ∀ p, h x = .live p → ∀ q ∈ p.points, h q = k q) : ptrRead h x = ptrRead k x := by
  unfold ptrRead
  rw [← hx]
  cases h1 : h x with
  | live p =>
    dsimp only
    rw [hp p h1 p.first.obj (by simp [PtrObj.points])]
  | unused => rfl
  | dead => rfl

/-- Objects with pointers, copied member by member. -/
theorem ptr_footprint : Footprint (Objects.step mk) ptrRead PtrObj.points :=
  footprint_of (step_construct mk) (step_copy mk) (step_assign mk) (step_destroy mk) ptrRead_congr

theorem stepR_copy (h k : Heap PtrObj) (x y : Nat) (h' : Heap PtrObj) (hx : h x = k x) (hy : h y = k y)
    (e : stepR mk h (.copy x y : Op V) = .ok h') :
    ∃ s, h' = h.set x s ∧ stepR mk k (.copy x y) = .ok (k.set x s) := by
  simp only [stepR, ← hx, ← hy] at e ⊢
  cases h1 : h x <;> cases h2 : h y <;> rw [h1, h2] at e <;> dsimp only at e ⊢ <;> try cases e
  rename_i o
  cases h3 : copyOf x y o <;> rw [h3] at e <;> cases e
  exact ⟨_, rfl, rfl⟩

theorem stepR_assign (h k : Heap PtrObj) (x y : Nat) (h' : Heap PtrObj) (hx : h x = k x) (hy : h y = k y)
    (e : stepR mk h (.assign x y : Op V) = .ok h') :
    ∃ s, h' = h.set x s ∧ stepR mk k (.assign x y) = .ok (k.set x s) := by
  simp only [stepR, ← hx, ← hy] at e ⊢
  cases h1 : h x <;> cases h2 : h y <;> rw [h1, h2] at e <;> dsimp only at e ⊢ <;> try cases e
  rename_i _ o
  cases h3 : copyOf x y o <;> rw [h3] at e <;> cases e
  exact ⟨_, rfl, rfl⟩

/-- Objects with pointers, copied so that they point into themselves. -/
theorem ptrR_footprint : Footprint (stepR mk) ptrRead PtrObj.points :=
  footprint_of (step_construct mk) (stepR_copy mk) (stepR_assign mk) (step_destroy mk) ptrRead_congr

/-- A constructor points into its own object. -/
def PointsHome (mk : Nat → Bytes → V → Res PtrObj) : Prop := ∀ x junk v o, mk x junk v = .ok o → o.first.obj = x

theorem placeInt_home (f : Bytes → V → Res IntObj) : PointsHome (placeInt f) := by
  intro x junk v o e
  unfold placeInt at e
  cases h1 : f junk v <;> rw [h1] at e <;> cases e
  rfl

theorem placeFloat_home (f : Bytes → V → Res FloatObj) : PointsHome (placeFloat f) := by
  intro x junk v o e
  unfold placeFloat at e
  cases h1 : f junk v <;> rw [h1] at e <;> cases e
  rfl

theorem ptr_traces (hm : PointsHome mk) : Traces (Objects.step mk) ptrRead PtrObj.points := by
  intro h a h' o e x p hx
  by_cases hc : x ∈ a.changes
  rotate_left
  · obtain ⟨_, -, -, h2⟩ := ptr_footprint mk h h a h' o (fun _ _ _ => rfl) e
    rw [(h2 x fun hw => hc (written_changes hw)).1] at hx
    exact .inl hx
  refine .inr ⟨hc, ?_⟩
  cases a with
  | read y => simp [Act.changes] at hc
  | op a =>
    have e0 : Objects.step mk h a = .ok h' := by
      simp only [act] at e
      cases e1 : Objects.step mk h a <;> rw [e1] at e <;> cases e
      rfl
    cases a with
    | construct y junk v =>
      simp only [Act.changes, List.mem_singleton] at hc
      subst hc
      simp only [Objects.step] at e0
      cases h1 : h x <;> rw [h1] at e0 <;> dsimp only at e0 <;> try cases e0
      cases h2 : mk x junk v <;> rw [h2] at e0 <;> cases e0
      rw [heap_set_same] at hx
      cases hx
      intro q hq
      simp only [PtrObj.points, List.mem_singleton] at hq
      exact .inl (hq.trans (hm _ _ _ _ h2))
    | copy y z =>
      simp only [Act.changes, List.mem_singleton] at hc
      subst hc
      simp only [Objects.step] at e0
      cases h1 : h x <;> cases h2 : h z <;> rw [h1, h2] at e0 <;> cases e0
      rw [heap_set_same] at hx
      cases hx
      exact fun q hq => .inr ⟨z, by simp [Act.uses], _, h2, hq⟩
    | assign y z =>
      simp only [Act.changes, List.mem_singleton] at hc
      subst hc
      simp only [Objects.step] at e0
      cases h1 : h x <;> cases h2 : h z <;> rw [h1, h2] at e0 <;> cases e0
      rw [heap_set_same] at hx
      cases hx
      exact fun q hq => .inr ⟨z, by simp [Act.uses], _, h2, hq⟩
    | destroy y =>
      simp only [Act.changes, List.mem_singleton] at hc
      subst hc
      simp only [Objects.step] at e0
      cases h1 : h x <;> rw [h1] at e0 <;> cases e0
      rw [heap_set_same] at hx
      cases hx

theorem copyOf_home {x y : Nat} {o p : PtrObj} (e : copyOf x y o = .ok p) : p.first.obj = x := by
  unfold copyOf at e
  split at e <;> cases e
  rfl

theorem ptrR_traces (hm : PointsHome mk) : Traces (stepR mk) ptrRead PtrObj.points := by
  intro h a h' o e x p hx
  by_cases hc : x ∈ a.changes
  rotate_left
  · obtain ⟨_, -, -, h2⟩ := ptrR_footprint mk h h a h' o (fun _ _ _ => rfl) e
    rw [(h2 x fun hw => hc (written_changes hw)).1] at hx
    exact .inl hx
  refine .inr ⟨hc, ?_⟩
  cases a with
  | read y => simp [Act.changes] at hc
  | op a =>
    have e0 : stepR mk h a = .ok h' := by
      simp only [act] at e
      cases e1 : stepR mk h a <;> rw [e1] at e <;> cases e
      rfl
    cases a with
    | construct y junk v =>
      simp only [Act.changes, List.mem_singleton] at hc
      subst hc
      simp only [stepR, Objects.step] at e0
      cases h1 : h x <;> rw [h1] at e0 <;> dsimp only at e0 <;> try cases e0
      cases h2 : mk x junk v <;> rw [h2] at e0 <;> cases e0
      rw [heap_set_same] at hx
      cases hx
      intro q hq
      simp only [PtrObj.points, List.mem_singleton] at hq
      exact .inl (hq.trans (hm _ _ _ _ h2))
    | copy y z =>
      simp only [Act.changes, List.mem_singleton] at hc
      subst hc
      simp only [stepR] at e0
      cases h1 : h x <;> cases h2 : h z <;> rw [h1, h2] at e0 <;> dsimp only at e0 <;> try cases e0
      rename_i r
      cases h3 : copyOf x z r <;> rw [h3] at e0 <;> cases e0
      rw [heap_set_same] at hx
      cases hx
      intro q hq
      simp only [PtrObj.points, List.mem_singleton] at hq
      exact .inl (hq.trans (copyOf_home h3))
    | assign y z =>
      simp only [Act.changes, List.mem_singleton] at hc
      subst hc
      simp only [stepR] at e0
      cases h1 : h x <;> cases h2 : h z <;> rw [h1, h2] at e0 <;> dsimp only at e0 <;> try cases e0
      rename_i _ r
      cases h3 : copyOf x z r <;> rw [h3] at e0 <;> cases e0
      rw [heap_set_same] at hx
      cases hx
      intro q hq
      simp only [PtrObj.points, List.mem_singleton] at hq
      exact .inl (hq.trans (copyOf_home h3))
    | destroy y =>
      simp only [Act.changes, List.mem_singleton] at hc
      subst hc
      simp only [stepR, Objects.step] at e0
      cases h1 : h x <;> rw [h1] at e0 <;> cases e0
      rw [heap_set_same] at hx
      cases hx

end

end Lexi.Objects
