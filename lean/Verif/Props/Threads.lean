import Verif.Proofs.Threads
import Verif.Props.CopyRepair

/-!
# C110: formatter objects in several threads

A thread names only its own objects and shared ones that nobody changes (`Act.Allowed`). For `FormatBool`, `FormatNull` and
`FormatChar` that is enough: no data race, and each thread gets what it would get alone, in every interleaving. For `FormatInt`,
`FormatEnum` and `FormatFloat` it is not: reading a copy looks into the original, which may belong to another thread. The exact
condition is on the origins of the copies; with the repaired copies of C104 there is none.
-/

namespace Lexi
open Spec Spec.History Spec.Threads Objects Dtoa

/-- No data race in any interleaving, all threads together are defined exactly if each alone is, and then each reads the same
texts and leaves the same objects as alone. -/
def Undisturbed {α V : Type} (step : Heap α → Op V → Res (Heap α)) (read : Heap α → Nat → Res Bytes) (points : α → List Nat)
    (owner : Nat → Option Nat) (h : Heap α) : Prop :=
  ∀ s : List (Nat × Act V), (∀ e ∈ s, e.2.Allowed owner e.1) →
    ¬ Race step read points h s ∧
    ((∃ r, together step read h s = .ok r) ↔ ∀ t, ∃ r, alone step read h (own t s) = .ok r) ∧
    ∀ h' os, together step read h s = .ok (h', os) → ∀ t, ∃ k, alone step read h (own t s) = .ok (k, own t os) ∧
      ∀ i, owner i = some t ∨ owner i = none → h' i = k i

theorem undisturbed {α V : Type} {step : Heap α → Op V → Res (Heap α)} {read : Heap α → Nat → Res Bytes} {points : α → List Nat}
    (hf : Footprint step read points) (ht : Traces step read points) {owner : Nat → Option Nat} {h : Heap α}
    (hc : Closed points owner h) : Undisturbed step read points owner h := by
  intro s hs
  have key := together_alone hf ht s h (fun _ => h) hc (fun _ _ _ => rfl) hs
  refine ⟨no_race hf ht hc hs, ⟨?_, together_defined hf ht s h (fun _ => h) hc (fun _ _ _ => rfl) hs⟩, fun h' os e => (key h' os e).2⟩
  rintro ⟨⟨h', os⟩, e⟩ t
  obtain ⟨k, ek, -⟩ := (key h' os e).2 t
  exact ⟨_, ek⟩

/-- C110, the accesses used to define a race are complete: an action depends on nothing but the objects it accesses and changes
nothing but those it writes, for every class and for both kinds of copies. -/
theorem C110_accesses :
    Footprint (step fun _ => formatBool .default) (plainRead BoolObj.string) (fun _ => []) ∧
    Footprint (step fun _ junk (_ : Unit) => formatNull .default junk) (plainRead NullObj.string) (fun _ => []) ∧
    Footprint (step fun _ => formatChar) (plainRead CharObj.string) (fun _ => []) ∧
    (∀ p, Footprint (step (placeInt (formatInt p))) ptrRead PtrObj.points ∧
      Footprint (stepR (placeInt (formatInt p))) ptrRead PtrObj.points) ∧
    (∀ p, Footprint (step (placeInt (formatEnum p))) ptrRead PtrObj.points ∧
      Footprint (stepR (placeInt (formatEnum p))) ptrRead PtrObj.points) ∧
    (∀ env, Footprint (step (placeFloat (formatLd .default env))) ptrRead PtrObj.points ∧
      Footprint (stepR (placeFloat (formatLd .default env))) ptrRead PtrObj.points) :=
  ⟨plain_footprint _ _, plain_footprint _ _, plain_footprint _ _, fun _ => ⟨ptr_footprint _, ptrR_footprint _⟩,
   fun _ => ⟨ptr_footprint _, ptrR_footprint _⟩, fun _ => ⟨ptr_footprint _, ptrR_footprint _⟩⟩

/-! ## Classes without pointers -/

/-- C110, `FormatBool`, `FormatNull`, `FormatChar`: threads do not disturb one another, whatever objects there are at the start and
whoever owns them. -/
theorem C110_plain (owner : Nat → Option Nat) :
    (∀ h, Undisturbed (step fun _ => formatBool .default) (plainRead BoolObj.string) (fun _ => []) owner h) ∧
    (∀ h, Undisturbed (step fun _ junk (_ : Unit) => formatNull .default junk) (plainRead NullObj.string) (fun _ => []) owner h) ∧
    (∀ h, Undisturbed (step fun _ => formatChar) (plainRead CharObj.string) (fun _ => []) owner h) :=
  have hc : ∀ {α : Type} (h : Heap α), Closed (fun _ => []) owner h := fun _ _ _ _ _ hq => by cases hq
  ⟨fun h => undisturbed (plain_footprint _ _) (plain_traces _ _) (hc h),
   fun h => undisturbed (plain_footprint _ _) (plain_traces _ _) (hc h),
   fun h => undisturbed (plain_footprint _ _) (plain_traces _ _) (hc h)⟩

/-! ## Classes with pointers -/

namespace Objects

variable {V : Type} {mk : Nat → Bytes → V → Res PtrObj} {size : Nat} {ok : V → Prop} {text : V → Bytes}

theorem ptr_closed {σ : State V} {h : Heap PtrObj} (hr : ∀ i, PtrCell text σ (σ i) (h i)) {owner : Nat → Option Nat}
    (ho : ∀ x v o, σ x = .live v o → owner o = owner x ∨ owner o = none) : Closed PtrObj.points owner h := by
  intro x p hx q hq
  have := hr x
  rw [hx] at this
  cases hs : σ x with
  | live v o =>
    rw [hs] at this
    obtain ⟨⟨rest, rfl⟩, -⟩ := this
    simp only [PtrObj.points, List.mem_singleton] at hq
    rw [hq]
    exact ho x v o hs
  | unused => rw [hs] at this; exact this.elim
  | dead => rw [hs] at this; exact this.elim

theorem ptr_live {σ : State V} {h : Heap PtrObj} (hr : ∀ i, PtrCell text σ (σ i) (h i)) {x : Nat} {v : V} {o : Nat}
    (hx : σ x = .live v o) : ∃ p, h x = .live p ∧ p.points = [o] := by
  have := hr x
  rw [hx] at this
  cases hh : h x with
  | live p =>
    rw [hh] at this
    obtain ⟨⟨rest, rfl⟩, -⟩ := this
    exact ⟨_, rfl, rfl⟩
  | unused => rw [hh] at this; exact this.elim
  | dead => rw [hh] at this; exact this.elim

/-- The owner of the original destroys it while another thread reads the copy. -/
theorem ptr_race {σ : State V} {h : Heap PtrObj} (hr : ∀ i, PtrCell text σ (σ i) (h i)) {owner : Nat → Option Nat} {x : Nat} {v : V}
    {o u : Nat} (hx : σ x = .live v o) {w : V} {q : Nat} (ho : σ o = .live w q) (hou : owner o = some u) (hxu : owner x ≠ some u) :
    ∃ s : List (Nat × Act V), (∀ e ∈ s, e.2.Allowed owner e.1) ∧ Race (step mk) ptrRead PtrObj.points h s := by
  obtain ⟨t, htu, ht⟩ : ∃ t, t ≠ u ∧ (owner x = some t ∨ owner x = none) := by
    cases hw : owner x with
    | none => exact ⟨u + 1, by omega, .inr rfl⟩
    | some t => exact ⟨t, fun h => hxu (by rw [hw, h]), .inl rfl⟩
  have hxo : x ≠ o := fun h => hxu (h ▸ hou)
  obtain ⟨p, hp, hpp⟩ := ptr_live hr hx
  obtain ⟨p', hp', -⟩ := ptr_live hr ho
  refine ⟨[(u, .op (.destroy o)), (t, .read x)], ?_, ?_⟩
  · intro e he
    simp only [List.mem_cons, List.not_mem_nil, or_false] at he
    rcases he with rfl | rfl
    · exact ⟨fun y hy => by simp only [Act.changes, List.mem_singleton] at hy; rw [hy]; exact hou, fun y hy => by cases hy⟩
    · exact ⟨fun y hy => (by cases hy), fun y hy => by simp only [Act.uses, List.mem_singleton] at hy; rw [hy]; exact ht⟩
  · refine ⟨[], [], [], u, t, .op (.destroy o), .read x, h, h.set o .dead, [], [], o, true, false, rfl, htu.symm, rfl, ?_, ?_, ?_,
      .inl rfl⟩
    · simp only [List.nil_append, together, act, step, hp']
      rfl
    · simp [accesses]
    · simp only [accesses, heap_set_ne _ _ hxo, hp, hpp]
      simp

/-- What C110 says of a class with pointers copied member by member. -/
def OriginsDecide (mk : Nat → Bytes → V → Res PtrObj) (size : Nat) (ok : V → Prop) : Prop :=
  ∀ (ops : List (Op V)) (σ : State V), Runs size ok .empty ops σ → ∀ owner : Nat → Option Nat,
    ∃ h, run mk .empty ops = .ok h ∧
      ((∀ x v o, σ x = .live v o → owner o = owner x ∨ owner o = none) → Undisturbed (step mk) ptrRead PtrObj.points owner h) ∧
      ((∀ x v o, σ x = .live v o → σ o ≠ .dead) →
        (¬ (∀ x v o, σ x = .live v o → owner o = owner x ∨ owner o = none) ↔
          ∃ s : List (Nat × Act V), (∀ e ∈ s, e.2.Allowed owner e.1) ∧ Race (step mk) ptrRead PtrObj.points h s))

theorem origins_decide (hmk : Writes mk size ok text) (hm : PointsHome mk) : OriginsDecide mk size ok := by
  intro ops σ hs owner
  obtain ⟨h, e, hr⟩ := ptr_run hmk hs (h := .empty) (fun i => trivial)
  have hU : (∀ x v o, σ x = .live v o → owner o = owner x ∨ owner o = none) →
      Undisturbed (step mk) ptrRead PtrObj.points owner h :=
    fun ho => undisturbed (ptr_footprint mk) (ptr_traces mk hm) (ptr_closed hr ho)
  refine ⟨h, e, hU, fun hd => ⟨fun hn => ?_, fun ⟨s, hs, hrace⟩ ho => (hU ho s hs).1 hrace⟩⟩
  simp only [not_forall, not_or] at hn
  obtain ⟨x, v, o, hx, h1, h2⟩ := hn
  cases hou : owner o with
  | none => exact absurd hou h2
  | some u =>
    have hxu : owner x ≠ some u := fun h' => h1 (by rw [hou, h'])
    have := hr x
    rw [hx] at this
    cases ho : σ o with
    | live w q => exact ptr_race hr hx ho hou hxu
    | dead => exact absurd ho (hd x v o hx)
    | unused =>
      cases hh : h x with
      | live p => rw [hh] at this; exact absurd ho this.2
      | unused => rw [hh] at this; exact this.elim
      | dead => rw [hh] at this; exact this.elim

end Objects

/-- C110, the present classes with pointers: after any history, threads do not disturb one another if every object has the same owner
as the object at the start of its chain of copies, or that one is shared. As long as no copy has outlived that object (else reading it
is undefined in one thread already, C45), this is necessary: otherwise two threads that each keep to their own objects can race. -/
theorem C110_pointers :
    (∀ p : Platform, p.Supported → OriginsDecide (placeInt (formatInt p)) INTEGER_SIZE (·.Fits p)) ∧
    (∀ p : Platform, p.Supported → OriginsDecide (placeInt (formatEnum p)) INTEGER_SIZE (·.Fits p)) ∧
    (∀ env : Env, EnvOk env → OriginsDecide (placeFloat (formatLd .default env)) FLOAT_SIZE (fun _ => True)) :=
  ⟨fun p hp => origins_decide (int_writes p hp) (placeInt_home _), fun p hp => origins_decide (enum_writes p hp) (placeInt_home _),
   fun _ henv => origins_decide (float_writes _ henv) (placeFloat_home _)⟩

/-! ## The texts -/

namespace Objects

variable {α V : Type} {size : Nat} {ok : V → Prop} {text : V → Bytes}

theorem alone_texts {step : Heap α → Op V → Res (Heap α)} {read : Heap α → Nat → Res Bytes} {R : State V → Heap α → Prop}
    (hstep : ∀ σ op σ' h, Step size ok σ op σ' → R σ h → ∃ h', step h op = .ok h' ∧ R σ' h')
    (hread : ∀ σ h x v o, R σ h → σ x = .live v o → read h x = .ok (text v))
    {σ σ' : State V} {as : List (Act V)} {vs : List V} (hd : Does size ok σ as vs σ') :
    ∀ h, R σ h → ∃ h', alone step read h as = .ok (h', vs.map text) := by
  induction hd with
  | nil => intro h _; exact ⟨h, rfl⟩
  | op h1 _ ih =>
    intro h hR
    obtain ⟨h', e, hR'⟩ := hstep _ _ _ h h1 hR
    obtain ⟨h'', e'⟩ := ih h' hR'
    exact ⟨h'', by simp only [alone, act, e, e', List.nil_append]⟩
  | read h1 _ ih =>
    intro h hR
    obtain ⟨h'', e'⟩ := ih h hR
    exact ⟨h'', by simp only [alone, act, hread _ h _ _ _ hR h1, e', List.singleton_append, List.map_cons]⟩

/-- After any history, whatever the owners: every interleaving of programs that make sense for each thread alone is defined, has no
data race, and gives each thread the texts of the values. -/
def ThreadSafe (step : Heap α → Op V → Res (Heap α)) (run : Heap α → List (Op V) → Res (Heap α))
    (read : Heap α → Nat → Res Bytes) (points : α → List Nat) (size : Nat) (ok : V → Prop) (text : V → Bytes) : Prop :=
  ∀ (ops : List (Op V)) (σ : State V), Runs size ok .empty ops σ → ∃ h, run .empty ops = .ok h ∧
    ∀ (owner : Nat → Option Nat) (s : List (Nat × Act V)) (vs : Nat → List V), (∀ e ∈ s, e.2.Allowed owner e.1) →
      (∀ t, ∃ σ', Does size ok σ (own t s) (vs t) σ') →
      ¬ Race step read points h s ∧
      ∃ h' os, together step read h s = .ok (h', os) ∧ ∀ t, own t os = (vs t).map text

theorem threadSafe_of {step : Heap α → Op V → Res (Heap α)} {read : Heap α → Nat → Res Bytes} {points : α → List Nat}
    {R : State V → Heap α → Prop}
    (hstep : ∀ σ op σ' h, Step size ok σ op σ' → R σ h → ∃ h', step h op = .ok h' ∧ R σ' h')
    (hread : ∀ σ h x v o, R σ h → σ x = .live v o → read h x = .ok (text v))
    {σ : State V} {h : Heap α} (hR : R σ h) {owner : Nat → Option Nat} (hU : Undisturbed step read points owner h)
    {s : List (Nat × Act V)} {vs : Nat → List V} (hs : ∀ e ∈ s, e.2.Allowed owner e.1)
    (hd : ∀ t, ∃ σ', Does size ok σ (own t s) (vs t) σ') :
    ¬ Race step read points h s ∧ ∃ h' os, together step read h s = .ok (h', os) ∧ ∀ t, own t os = (vs t).map text := by
  obtain ⟨h1, h2, h3⟩ := hU s hs
  have ha : ∀ t, ∃ h', alone step read h (own t s) = .ok (h', (vs t).map text) := fun t =>
    (hd t).elim fun _ hd => alone_texts hstep hread hd h hR
  obtain ⟨⟨h', os⟩, e⟩ := h2.mpr fun t => (ha t).elim fun k ek => ⟨_, ek⟩
  refine ⟨h1, h', os, e, fun t => ?_⟩
  obtain ⟨k, ek, -⟩ := h3 h' os e t
  obtain ⟨k', ek'⟩ := ha t
  have := Res.ok.inj (ek.symm.trans ek')
  injection this

theorem plain_threadSafe {mk : Bytes → V → Res α} {rd : α → Res Bytes}
    (hmk : ∀ junk v, junk.length = size → ok v → ∃ o, mk junk v = .ok o ∧ rd o = .ok (text v)) :
    ThreadSafe (step fun _ => mk) (run fun _ => mk) (plainRead rd) (fun _ => []) size ok text := by
  intro ops σ hs
  obtain ⟨h, e, hr⟩ := plain_run hmk hs (h := .empty) (fun i => trivial)
  refine ⟨h, e, fun owner s vs hA hd => ?_⟩
  refine threadSafe_of (R := fun σ h => ∀ i, PlainCell rd text (σ i) (h i)) (fun _ _ _ _ h1 hR => plain_step hmk h1 hR) ?_ hr
    (undisturbed (plain_footprint _ _) (plain_traces _ _) fun _ _ _ _ hq => by cases hq) hA hd
  intro σ h x v o hR hx
  have := hR x
  rw [hx] at this
  cases hh : h x with
  | live p => rw [hh] at this; simp only [plainRead, hh]; exact this
  | unused => rw [hh] at this; exact this.elim
  | dead => rw [hh] at this; exact this.elim

theorem own_closed {σ : State V} {h : Heap PtrObj} (hr : ∀ i, OwnCell text i (σ i) (h i)) (owner : Nat → Option Nat) :
    Closed PtrObj.points owner h := by
  intro x p hx q hq
  have := hr x
  rw [hx] at this
  cases hs : σ x with
  | live v o =>
    rw [hs] at this
    obtain ⟨rest, rfl⟩ := this
    simp only [PtrObj.points, List.mem_singleton] at hq
    rw [hq]
    exact .inl rfl
  | unused => rw [hs] at this; exact this.elim
  | dead => rw [hs] at this; exact this.elim

theorem repaired_threadSafe {mk : Nat → Bytes → V → Res PtrObj} (hmk : Writes mk size ok text) (hm : PointsHome mk) :
    ThreadSafe (stepR mk) (runR mk) ptrRead PtrObj.points size ok text := by
  intro ops σ hs
  obtain ⟨h, e, hr⟩ := own_run hmk hs (h := .empty) (fun i => trivial)
  refine ⟨h, e, fun owner s vs hA hd => ?_⟩
  exact threadSafe_of (R := fun σ h => ∀ i, OwnCell text i (σ i) (h i)) (fun _ _ _ _ h1 hR => own_step hmk h1 hR)
    (fun _ _ _ _ _ hR hx => own_read hR hx) hr (undisturbed (ptrR_footprint mk) (ptrR_traces mk hm) (own_closed hr owner)) hA hd

end Objects

/-- C110, the texts, for the classes without pointers. -/
theorem C110_texts :
    ThreadSafe (step fun _ => formatBool .default) (run fun _ => formatBool .default) (plainRead BoolObj.string) (fun _ => [])
      BOOL_SIZE (fun _ => True) (fun b => ascii (if b then "true" else "false")) ∧
    ThreadSafe (step fun _ junk (_ : Unit) => formatNull .default junk) (run fun _ junk (_ : Unit) => formatNull .default junk)
      (plainRead NullObj.string) (fun _ => []) NULL_SIZE (fun _ => True) (fun _ => ascii "null") ∧
    ThreadSafe (step fun _ => formatChar) (run fun _ => formatChar) (plainRead CharObj.string) (fun _ => []) CHAR_SIZE
      (fun _ => True) (fun c => [c]) := by
  refine ⟨plain_threadSafe fun junk b hj _ => ?_,
    plain_threadSafe (mk := fun junk (_ : Unit) => formatNull .default junk) fun junk b hj _ => ?_,
    plain_threadSafe fun junk b hj _ => ?_⟩
  · have h := C10_bool_format junk hj b
    unfold stringBool at h
    cases hf : formatBool .default junk b with
    | ok o => rw [hf] at h; exact ⟨o, rfl, h⟩
    | throws => rw [hf] at h; cases h
    | ub => rw [hf] at h; cases h
  · have h := (C11_null junk hj []).1
    unfold stringNull at h
    cases hf : formatNull .default junk with
    | ok o => rw [hf] at h; exact ⟨o, rfl, h⟩
    | throws => rw [hf] at h; cases h
    | ub => rw [hf] at h; cases h
  · have h := (C12_char junk hj b).1
    unfold stringChar at h
    cases hf : formatChar junk b with
    | ok o => rw [hf] at h; exact ⟨o, rfl, h⟩
    | throws => rw [hf] at h; cases h
    | ub => rw [hf] at h; cases h

/-- C110, the texts, for the classes with pointers if copies point into themselves (the repair of C104): no condition on the origins
is left. -/
theorem C110_repaired :
    (∀ p : Platform, p.Supported → ThreadSafe (stepR (placeInt (formatInt p))) (runR (placeInt (formatInt p))) ptrRead PtrObj.points
      INTEGER_SIZE (·.Fits p) (fun v => decimalText v.toInt)) ∧
    (∀ p : Platform, p.Supported → ThreadSafe (stepR (placeInt (formatEnum p))) (runR (placeInt (formatEnum p))) ptrRead PtrObj.points
      INTEGER_SIZE (·.Fits p) (fun v => decimalText v.toInt)) ∧
    (∀ env : Env, EnvOk env → ThreadSafe (stepR (placeFloat (formatLd .default env))) (runR (placeFloat (formatLd .default env)))
      ptrRead PtrObj.points FLOAT_SIZE (fun _ => True) (floatText env)) :=
  ⟨fun p hp => repaired_threadSafe (int_writes p hp) (placeInt_home _), fun p hp => repaired_threadSafe (enum_writes p hp) (placeInt_home _),
   fun _ henv => repaired_threadSafe (float_writes _ henv) (placeFloat_home _)⟩

/-! ## Examples -/

/-- Object 0 is shared, 1 belongs to thread 1 and 2 to thread 2. -/
def Objects.threeObjects : Nat → Option Nat
  | 0 => none
  | n => some n

/-- Both threads copy the shared object and read their copies; thread 2 also destroys its own. -/
def Objects.twoThreads : List (Nat × Act Bool) :=
  [(1, .op (.copy 1 0)), (2, .op (.copy 2 0)), (2, .read 2), (1, .read 1), (2, .op (.destroy 2)), (1, .read 0)]

example : (∀ e ∈ twoThreads, e.2.Allowed threeObjects e.1) ∧ own 1 twoThreads = [.op (.copy 1 0), .read 1, .read 0] ∧
    ∃ σ', Does BOOL_SIZE (fun _ : Bool => True) (State.empty.set 0 (.live true 0)) (own 1 twoThreads) [true, true] σ' := by
  refine ⟨?_, rfl, _, .op (.copy rfl rfl) (.read (p := 0) rfl (.read (p := 0) rfl .nil))⟩
  intro e he
  simp only [twoThreads, List.mem_cons, List.not_mem_nil, or_false] at he
  rcases he with rfl | rfl | rfl | rfl | rfl | rfl <;>
    refine ⟨fun x hx => ?_, fun x hx => ?_⟩ <;> simp [Act.changes, Act.uses] at hx <;> subst hx <;> simp [threeObjects]

/-- The hypothesis of the race in `C110_pointers`: an integer is formatted, the formatter is copied, and original and copy are handed to
two threads. -/
example (junk : Bytes) (hj : junk.length = INTEGER_SIZE) (p : Platform) :
    Runs INTEGER_SIZE (fun v : IntVal => v.Fits p) .empty [.construct 1 junk (.i32 7), .copy 2 1]
      ((State.empty.set 1 (.live (.i32 7) 1)).set 2 (.live (.i32 7) 1)) ∧
    ¬ (threeObjects 1 = threeObjects 2 ∨ threeObjects 1 = none) :=
  ⟨.cons (.construct rfl hj trivial) (.cons (.copy rfl rfl) .nil), by simp [threeObjects]⟩

end Lexi
