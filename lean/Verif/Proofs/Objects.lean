import Verif.Model.Objects

/-!
# Object histories: simulation of the specification
-/

namespace Lexi.Objects
open Spec.History

variable {α V : Type}

@[simp] theorem heap_set_same (h : Heap α) (x : Nat) (s : Slot α) : h.set x s x = s := by simp [Heap.set]
theorem heap_set_ne (h : Heap α) {x i : Nat} (s : Slot α) (hi : i ≠ x) : h.set x s i = h i := by
  simp [Heap.set, hi]
@[simp] theorem state_set_same (σ : State V) (x : Nat) (c : Cell V) : σ.set x c x = c := by simp [State.set]
theorem state_set_ne (σ : State V) {x i : Nat} (c : Cell V) (hi : i ≠ x) : σ.set x c i = σ i := by
  simp [State.set, hi]

/-! ## Objects without pointers -/

/-- Correspondence of one name. -/
def PlainCell (read : α → Res Bytes) (text : V → Bytes) : Cell V → Slot α → Prop
  | .unused, .unused => True
  | .dead, .dead => True
  | .live v _, .live o => read o = .ok (text v)
  | _, _ => False

theorem plain_step {mk : Bytes → V → Res α} {read : α → Res Bytes} {text : V → Bytes} {size : Nat} {ok : V → Prop}
    (hmk : ∀ junk v, junk.length = size → ok v → ∃ o, mk junk v = .ok o ∧ read o = .ok (text v))
    {σ σ' : State V} {op : Op V} (hs : Step size ok σ op σ') {h : Heap α}
    (hr : ∀ i, PlainCell read text (σ i) (h i)) :
    ∃ h', step (fun _ => mk) h op = .ok h' ∧ ∀ i, PlainCell read text (σ' i) (h' i) := by
  have upd : ∀ (x : Nat) (c : Cell V) (s : Slot α), PlainCell read text c s →
      ∀ i, PlainCell read text (σ.set x c i) (h.set x s i) := by
    intro x c s hcs i
    by_cases hi : i = x
    · subst hi; simpa using hcs
    · rw [state_set_ne _ _ hi, heap_set_ne _ _ hi]; exact hr i
  have live : ∀ {y v o}, σ y = .live v o → ∃ a, h y = .live a ∧ read a = .ok (text v) := by
    intro y v o hy
    have := hr y
    rw [hy] at this
    cases hh : h y with
    | live a => rw [hh] at this; exact ⟨a, rfl, this⟩
    | unused => rw [hh] at this; exact this.elim
    | dead => rw [hh] at this; exact this.elim
  have unused : ∀ {y}, σ y = .unused → h y = .unused := by
    intro y hy
    have := hr y
    rw [hy] at this
    cases hh : h y with
    | live a => rw [hh] at this; exact this.elim
    | unused => rfl
    | dead => rw [hh] at this; exact this.elim
  cases hs with
  | @construct x junk v hx hj hv =>
    obtain ⟨o, ho, hro⟩ := hmk junk v hj hv
    refine ⟨h.set x (.live o), ?_, upd _ _ _ hro⟩
    simp only [step, unused hx, ho]; rfl
  | @copy x y v o hx hy =>
    obtain ⟨a, ha, hra⟩ := live hy
    refine ⟨h.set x (.live a), ?_, upd _ _ _ hra⟩
    simp only [step, unused hx, ha]
  | @assign x y w p v o hx hy =>
    obtain ⟨a, ha, hra⟩ := live hy
    obtain ⟨b, hb, -⟩ := live hx
    refine ⟨h.set x (.live a), ?_, upd _ _ _ hra⟩
    simp only [step, hb, ha]
  | @destroy x v o hx =>
    obtain ⟨b, hb, -⟩ := live hx
    refine ⟨h.set x .dead, ?_, upd _ _ _ trivial⟩
    simp only [step, hb]

theorem plain_run {mk : Bytes → V → Res α} {read : α → Res Bytes} {text : V → Bytes} {size : Nat} {ok : V → Prop}
    (hmk : ∀ junk v, junk.length = size → ok v → ∃ o, mk junk v = .ok o ∧ read o = .ok (text v))
    {σ σ' : State V} {ops : List (Op V)} (hs : Runs size ok σ ops σ') {h : Heap α}
    (hr : ∀ i, PlainCell read text (σ i) (h i)) :
    ∃ h', run (fun _ => mk) h ops = .ok h' ∧ ∀ i, PlainCell read text (σ' i) (h' i) := by
  induction hs generalizing h with
  | nil => exact ⟨h, rfl, hr⟩
  | cons h1 _ ih =>
    obtain ⟨h', e, hr'⟩ := plain_step hmk h1 hr
    obtain ⟨h'', e', hr''⟩ := ih hr'
    refine ⟨h'', ?_, hr''⟩
    rw [run, e]; exact e'

/-- Objects without pointers: every live object yields the text of its value. -/
theorem plain_correct {mk : Bytes → V → Res α} {read : α → Res Bytes} {text : V → Bytes} {size : Nat} {ok : V → Prop}
    (hmk : ∀ junk v, junk.length = size → ok v → ∃ o, mk junk v = .ok o ∧ read o = .ok (text v))
    {σ : State V} {ops : List (Op V)} (hs : Runs size ok .empty ops σ) :
    ∃ h, run (fun _ => mk) .empty ops = .ok h ∧
      ∀ x v o, σ x = .live v o → plainRead read h x = .ok (text v) := by
  obtain ⟨h, e, hr⟩ := plain_run hmk hs (h := .empty) (fun i => trivial)
  refine ⟨h, e, fun x v o hx => ?_⟩
  have := hr x
  rw [hx] at this
  unfold plainRead
  cases hh : h x with
  | live a => rw [hh] at this; exact this
  | unused => rw [hh] at this; exact this.elim
  | dead => rw [hh] at this; exact this.elim

/-! ## Meaningless histories -/

/-- Same lifetime. -/
def SameLife : Cell V → Slot α → Prop
  | .unused, .unused => True
  | .dead, .dead => True
  | .live _ _, .live _ => True
  | _, _ => False

theorem life_step {mk : Nat → Bytes → V → Res α} {size : Nat} {ok : V → Prop}
    (hmk : ∀ x junk v, junk.length = size → ok v → ∃ o, mk x junk v = .ok o) {σ : State V} {h : Heap α}
    (hr : ∀ i, SameLife (σ i) (h i)) (op : Op V) (hop : op.Possible size ok) :
    (∃ σ' h', Step size ok σ op σ' ∧ step mk h op = .ok h' ∧ ∀ i, SameLife (σ' i) (h' i)) ∨
    ((¬ ∃ σ', Step size ok σ op σ') ∧ step mk h op = .ub) := by
  have upd : ∀ (x : Nat) (c : Cell V) (s : Slot α), SameLife c s →
      ∀ i, SameLife (σ.set x c i) (h.set x s i) := by
    intro x c s hcs i
    by_cases hi : i = x
    · subst hi; simpa using hcs
    · rw [state_set_ne _ _ hi, heap_set_ne _ _ hi]; exact hr i
  cases op with
  | construct x junk v =>
    obtain ⟨o, ho⟩ := hmk x junk v hop.1 hop.2
    have hx := hr x
    cases hs : σ x with
    | unused =>
      cases hh : h x with
      | unused => exact .inl ⟨_, h.set x (.live o), .construct hs hop.1 hop.2, by simp only [step, hh, ho]; rfl, upd _ _ _ trivial⟩
      | live a => rw [hs, hh] at hx; exact hx.elim
      | dead => rw [hs, hh] at hx; exact hx.elim
    | live w q =>
      refine .inr ⟨fun ⟨σ', h'⟩ => (by cases h' with | construct h1 _ _ => rw [hs] at h1; cases h1), ?_⟩
      cases hh : h x with
      | unused => rw [hs, hh] at hx; exact hx.elim
      | live a => simp only [step, hh]
      | dead => simp only [step, hh]
    | dead =>
      refine .inr ⟨fun ⟨σ', h'⟩ => (by cases h' with | construct h1 _ _ => rw [hs] at h1; cases h1), ?_⟩
      cases hh : h x with
      | unused => rw [hs, hh] at hx; exact hx.elim
      | live a => simp only [step, hh]
      | dead => simp only [step, hh]
  | copy x y =>
    have hx := hr x
    have hy := hr y
    cases hs : σ x <;> cases ht : σ y <;> cases hh : h x <;> cases hk : h y <;>
      rw [hs, hh] at hx <;> rw [ht, hk] at hy <;> first
        | exact hx.elim
        | exact hy.elim
        | exact .inl ⟨_, h.set x (h y), .copy hs ht, by simp only [step, hh, hk], upd _ _ _ (by rw [hk]; trivial)⟩
        | refine .inr ⟨fun ⟨σ', h'⟩ => ?_, by simp only [step, hh, hk]⟩
          cases h' with
          | copy h1 h2 => first | (rw [hs] at h1; cases h1; done) | (rw [ht] at h2; cases h2; done)
  | assign x y =>
    have hx := hr x
    have hy := hr y
    cases hs : σ x <;> cases ht : σ y <;> cases hh : h x <;> cases hk : h y <;>
      rw [hs, hh] at hx <;> rw [ht, hk] at hy <;> first
        | exact hx.elim
        | exact hy.elim
        | exact .inl ⟨_, h.set x (h y), .assign hs ht, by simp only [step, hh, hk], upd _ _ _ (by rw [hk]; trivial)⟩
        | refine .inr ⟨fun ⟨σ', h'⟩ => ?_, by simp only [step, hh, hk]⟩
          cases h' with
          | assign h1 h2 => first | (rw [hs] at h1; cases h1; done) | (rw [ht] at h2; cases h2; done)
  | destroy x =>
    have hx := hr x
    cases hs : σ x <;> cases hh : h x <;> rw [hs, hh] at hx <;> first
        | exact hx.elim
        | exact .inl ⟨_, h.set x .dead, .destroy hs, by simp only [step, hh], upd _ _ _ trivial⟩
        | refine .inr ⟨fun ⟨σ', h'⟩ => ?_, by simp only [step, hh]⟩
          cases h' with
          | destroy h1 => rw [hs] at h1; cases h1

theorem step_det {size : Nat} {ok : V → Prop} {σ a b : State V} {op : Op V} (ha : Step size ok σ op a)
    (hb : Step size ok σ op b) : a = b := by
  cases ha with
  | construct _ _ _ => cases hb; rfl
  | copy _ h => cases hb with | copy _ h' => rw [h] at h'; cases h'; rfl
  | assign _ h => cases hb with | assign _ h' => rw [h] at h'; cases h'; rfl
  | destroy _ => cases hb; rfl

/-- A history means something exactly when it runs; otherwise it is undefined. -/
theorem life_run {mk : Nat → Bytes → V → Res α} {size : Nat} {ok : V → Prop}
    (hmk : ∀ x junk v, junk.length = size → ok v → ∃ o, mk x junk v = .ok o) (ops : List (Op V))
    (hops : ∀ op ∈ ops, op.Possible size ok) {σ : State V} {h : Heap α} (hr : ∀ i, SameLife (σ i) (h i)) :
    ((∃ σ', Runs size ok σ ops σ') ∧ ∃ h', run mk h ops = .ok h') ∨
    ((¬ ∃ σ', Runs size ok σ ops σ') ∧ run mk h ops = .ub) := by
  induction ops generalizing σ h with
  | nil => exact .inl ⟨⟨σ, .nil⟩, h, rfl⟩
  | cons op ops ih =>
    rcases life_step hmk hr op (hops op (by simp)) with ⟨σ', h', hs, he, hr'⟩ | ⟨hs, he⟩
    · rcases ih (fun o ho => hops o (by simp [ho])) hr' with ⟨⟨τ, ht⟩, k, hk⟩ | ⟨ht, hk⟩
      · exact .inl ⟨⟨τ, .cons hs ht⟩, k, by rw [run, he]; exact hk⟩
      · refine .inr ⟨fun ⟨τ, hτ⟩ => ?_, by rw [run, he]; exact hk⟩
        cases hτ with
        | cons h1 h2 => rw [step_det h1 hs] at h2; exact ht ⟨τ, h2⟩
    · refine .inr ⟨fun ⟨τ, hτ⟩ => ?_, by rw [run, he]; rfl⟩
      cases hτ with
      | cons h1 h2 => exact hs ⟨_, h1⟩

theorem undefined_iff {mk : Nat → Bytes → V → Res α} {size : Nat} {ok : V → Prop}
    (hmk : ∀ x junk v, junk.length = size → ok v → ∃ o, mk x junk v = .ok o) (ops : List (Op V))
    (hops : ∀ op ∈ ops, op.Possible size ok) :
    run mk .empty ops = .ub ↔ ¬ ∃ σ, Runs size ok .empty ops σ := by
  rcases life_run hmk ops hops (σ := .empty) (h := .empty) (fun _ => trivial) with ⟨h1, k, hk⟩ | ⟨h1, hk⟩
  · rw [hk]; exact ⟨fun h => (by cases h), fun h => absurd h1 h⟩
  · exact ⟨fun _ => h1, fun _ => hk⟩

/-! ## Objects with pointers -/

/-- What a constructor with pointers must do: write the text and a NUL at the start of the buffer and point
`first`, `last` around the text in the object itself. -/
def Writes (mk : Nat → Bytes → V → Res PtrObj) (size : Nat) (ok : V → Prop) (text : V → Bytes) : Prop :=
  ∀ x junk v, junk.length = size → ok v →
    ∃ rest, mk x junk v = .ok ⟨text v ++ 0 :: rest, ⟨x, 0⟩, ⟨x, (text v).length⟩⟩

def PtrCell (text : V → Bytes) (σ : State V) : Cell V → Slot PtrObj → Prop
  | .unused, .unused => True
  | .dead, .dead => True
  | .live v o, .live p => (∃ rest, p = ⟨text v ++ 0 :: rest, ⟨o, 0⟩, ⟨o, (text v).length⟩⟩) ∧ σ o ≠ .unused
  | _, _ => False

theorem ptrCell_mono {text : V → Bytes} {σ σ' : State V} (h : ∀ i, σ i ≠ .unused → σ' i ≠ .unused) {c : Cell V}
    {s : Slot PtrObj} (hc : PtrCell text σ c s) : PtrCell text σ' c s := by
  cases c <;> cases s <;> try exact hc
  exact ⟨hc.1, h _ hc.2⟩

theorem ptr_step {mk : Nat → Bytes → V → Res PtrObj} {text : V → Bytes} {size : Nat} {ok : V → Prop}
    (hmk : Writes mk size ok text) {σ σ' : State V} {op : Op V} (hs : Step size ok σ op σ') {h : Heap PtrObj}
    (hr : ∀ i, PtrCell text σ (σ i) (h i)) :
    ∃ h', step mk h op = .ok h' ∧ ∀ i, PtrCell text σ' (σ' i) (h' i) := by
  have upd : ∀ (x : Nat) (c : Cell V) (s : Slot PtrObj), c ≠ .unused → PtrCell text (σ.set x c) c s →
      ∀ i, PtrCell text (σ.set x c) (σ.set x c i) (h.set x s i) := by
    intro x c s hc hcs i
    by_cases hi : i = x
    · subst hi; simpa using hcs
    · rw [state_set_ne _ _ hi, heap_set_ne _ _ hi]
      refine ptrCell_mono (fun j hj => ?_) (hr i)
      by_cases hjx : j = x
      · subst hjx; simpa using hc
      · rw [state_set_ne _ _ hjx]; exact hj
  have keep : ∀ (x : Nat) (c : Cell V) (o : Nat), c ≠ .unused → σ o ≠ .unused → σ.set x c o ≠ .unused := by
    intro x c o hc ho
    by_cases hox : o = x
    · subst hox; simpa using hc
    · rw [state_set_ne _ _ hox]; exact ho
  have live : ∀ {y v o}, σ y = .live v o →
      ∃ rest, h y = .live ⟨text v ++ 0 :: rest, ⟨o, 0⟩, ⟨o, (text v).length⟩⟩ ∧ σ o ≠ .unused := by
    intro y v o hy
    have := hr y
    rw [hy] at this
    cases hh : h y with
    | live a =>
      rw [hh] at this
      obtain ⟨⟨rest, rfl⟩, ho⟩ := this
      exact ⟨rest, rfl, ho⟩
    | unused => rw [hh] at this; exact this.elim
    | dead => rw [hh] at this; exact this.elim
  have unused : ∀ {y}, σ y = .unused → h y = .unused := by
    intro y hy
    have := hr y
    rw [hy] at this
    cases hh : h y with
    | live a => rw [hh] at this; exact this.elim
    | unused => rfl
    | dead => rw [hh] at this; exact this.elim
  cases hs with
  | @construct x junk v hx hj hv =>
    obtain ⟨rest, ho⟩ := hmk x junk v hj hv
    refine ⟨h.set x (.live _), ?_, upd _ _ _ (by simp) ⟨⟨rest, rfl⟩, by simp⟩⟩
    simp only [step, unused hx, ho]; rfl
  | @copy x y v o hx hy =>
    obtain ⟨rest, ha, ho⟩ := live hy
    refine ⟨h.set x (.live _), ?_, upd _ _ _ (by simp) ⟨⟨rest, rfl⟩, keep _ _ _ (by simp) ho⟩⟩
    simp only [step, unused hx, ha]
  | @assign x y w p v o hx hy =>
    obtain ⟨rest, ha, ho⟩ := live hy
    obtain ⟨rest', hb, -⟩ := live hx
    refine ⟨h.set x (.live _), ?_, upd _ _ _ (by simp) ⟨⟨rest, rfl⟩, keep _ _ _ (by simp) ho⟩⟩
    simp only [step, hb, ha]
  | @destroy x v o hx =>
    obtain ⟨rest', hb, -⟩ := live hx
    refine ⟨h.set x .dead, ?_, upd _ _ _ (by simp) trivial⟩
    simp only [step, hb]

theorem ptr_run {mk : Nat → Bytes → V → Res PtrObj} {text : V → Bytes} {size : Nat} {ok : V → Prop}
    (hmk : Writes mk size ok text) {σ σ' : State V} {ops : List (Op V)} (hs : Runs size ok σ ops σ')
    {h : Heap PtrObj} (hr : ∀ i, PtrCell text σ (σ i) (h i)) :
    ∃ h', run mk h ops = .ok h' ∧ ∀ i, PtrCell text σ' (σ' i) (h' i) := by
  induction hs generalizing h with
  | nil => exact ⟨h, rfl, hr⟩
  | cons h1 _ ih =>
    obtain ⟨h', e, hr'⟩ := ptr_step hmk h1 hr
    obtain ⟨h'', e', hr''⟩ := ih hr'
    refine ⟨h'', ?_, hr''⟩
    rw [run, e]; exact e'

/-- What reading yields: the bytes of the origin's buffer over the length of the object's own text. -/
theorem ptr_read {text : V → Bytes} {σ : State V} {h : Heap PtrObj} (hr : ∀ i, PtrCell text σ (σ i) (h i))
    {x : Nat} {v : V} {o : Nat} (hx : σ x = .live v o) :
    (σ o = .dead ∧ ptrRead h x = .ub) ∨
    ∃ w p rest, σ o = .live w p ∧
      ptrRead h x = readN (text w ++ 0 :: rest) 0 (text v).length := by
  have := hr x
  rw [hx] at this
  cases hh : h x with
  | unused => rw [hh] at this; exact this.elim
  | dead => rw [hh] at this; exact this.elim
  | live a =>
    rw [hh] at this
    obtain ⟨⟨rest, rfl⟩, ho⟩ := this
    have hro := hr o
    cases hso : σ o with
    | unused => exact absurd hso ho
    | dead =>
      rw [hso] at hro
      left
      refine ⟨rfl, ?_⟩
      cases hho : h o with
      | live _ => rw [hho] at hro; exact hro.elim
      | unused => rw [hho] at hro; exact hro.elim
      | dead => simp only [ptrRead, hh, hho, if_true]
    | live w p =>
      rw [hso] at hro
      right
      cases hho : h o with
      | unused => rw [hho] at hro; exact hro.elim
      | dead => rw [hho] at hro; exact hro.elim
      | live b =>
        rw [hho] at hro
        obtain ⟨⟨rest', rfl⟩, -⟩ := hro
        refine ⟨w, p, rest', rfl, ?_⟩
        simp only [ptrRead, hh, hho, if_true, Nat.sub_zero]

/-- Reading over a NUL-terminated text yields a NUL-free text exactly when that is a prefix. -/
theorem readN_prefix_iff (t s rest : Bytes) (h0 : (0 : UInt8) ∉ s) :
    readN (t ++ 0 :: rest) 0 s.length = .ok s ↔ s <+: t := by
  unfold readN
  constructor
  · intro h
    split at h
    · rw [List.drop_zero] at h
      have e : (t ++ 0 :: rest).take s.length = s := by injection h
      by_cases hl : s.length ≤ t.length
      · rw [List.take_append_of_le_length hl] at e
        exact List.prefix_iff_eq_take.mpr e.symm
      · exfalso
        apply h0
        rw [← e, List.take_append]
        apply List.mem_append_right
        obtain ⟨k, hk⟩ : ∃ k, s.length - t.length = k + 1 := ⟨s.length - t.length - 1, by omega⟩
        rw [hk]; simp
    · cases h
  · rintro ⟨u, rfl⟩
    rw [if_pos (by simp), List.drop_zero]
    congr 1
    rw [List.append_assoc]
    exact List.take_left

/-- The characterisation: an object whose origin is destroyed has undefined behaviour; otherwise its text is right exactly
when it is a prefix of the text the origin holds now. -/
theorem ptr_correct {mk : Nat → Bytes → V → Res PtrObj} {text : V → Bytes} {size : Nat} {ok : V → Prop}
    (hmk : Writes mk size ok text) (h0 : ∀ v, (0 : UInt8) ∉ text v) {σ : State V} {ops : List (Op V)}
    (hs : Runs size ok .empty ops σ) :
    ∃ h, run mk .empty ops = .ok h ∧ ∀ x v o, σ x = .live v o →
      (σ o = .dead ∧ ptrRead h x = .ub) ∨
      ∃ w p, σ o = .live w p ∧ (ptrRead h x = .ok (text v) ↔ text v <+: text w) := by
  obtain ⟨h, e, hr⟩ := ptr_run hmk hs (h := .empty) (fun i => trivial)
  refine ⟨h, e, fun x v o hx => ?_⟩
  rcases ptr_read hr hx with h1 | ⟨w, p, rest, h1, h2⟩
  · exact Or.inl h1
  · right
    refine ⟨w, p, h1, ?_⟩
    rw [h2, readN_prefix_iff _ _ _ (h0 v)]

end Lexi.Objects
