import Verif.Model.CopyRepair
import Verif.Props.Objects

/-!
# C104: with copies that point into themselves, formatter objects are values

Nothing here is about the present classes, whose copies are memberwise (C45, C57).
-/

namespace Lexi
open Spec Spec.History Objects Dtoa

namespace Objects

/-- Every live object points into itself and holds the text of its value. -/
def OwnCell (text : V → Bytes) (x : Nat) : Cell V → Slot PtrObj → Prop
  | .unused, .unused => True
  | .dead, .dead => True
  | .live v _, .live p => ∃ rest, p = ⟨text v ++ 0 :: rest, ⟨x, 0⟩, ⟨x, (text v).length⟩⟩
  | _, _ => False

variable {V : Type} {mk : Nat → Bytes → V → Res PtrObj} {text : V → Bytes} {size : Nat} {ok : V → Prop}

theorem OwnCell.live {x : Nat} {v : V} {o : Nat} {s : Slot PtrObj} (h : OwnCell text x (.live v o) s) :
    ∃ rest, s = .live ⟨text v ++ 0 :: rest, ⟨x, 0⟩, ⟨x, (text v).length⟩⟩ := by
  cases s with
  | live p => obtain ⟨rest, rfl⟩ := h; exact ⟨rest, rfl⟩
  | unused => exact h.elim
  | dead => exact h.elim

theorem OwnCell.unused {x : Nat} {s : Slot PtrObj} (h : OwnCell text x (.unused : Cell V) s) : s = .unused := by
  cases s with
  | live p => exact h.elim
  | unused => rfl
  | dead => exact h.elim

theorem own_step (hmk : Writes mk size ok text) {σ σ' : State V} {op : Op V} (hs : Step size ok σ op σ') {h : Heap PtrObj}
    (hr : ∀ i, OwnCell text i (σ i) (h i)) :
    ∃ h', stepR mk h op = .ok h' ∧ ∀ i, OwnCell text i (σ' i) (h' i) := by
  have upd : ∀ (x : Nat) (c : Cell V) (s : Slot PtrObj), OwnCell text x c s →
      ∀ i, OwnCell text i (σ.set x c i) (h.set x s i) := by
    intro x c s hcs i
    by_cases hi : i = x
    · subst hi; simpa using hcs
    · rw [state_set_ne _ _ hi, heap_set_ne _ _ hi]; exact hr i
  have live : ∀ {y v o}, σ y = .live v o → ∃ rest, h y = .live ⟨text v ++ 0 :: rest, ⟨y, 0⟩, ⟨y, (text v).length⟩⟩ :=
    fun {y v o} hy => OwnCell.live (o := o) (hy ▸ hr y)
  have unused : ∀ {y}, σ y = .unused → h y = .unused := fun {y} hy => OwnCell.unused (hy ▸ hr y)
  cases hs with
  | @construct x junk v hx hj hv =>
    obtain ⟨rest, ho⟩ := hmk x junk v hj hv
    refine ⟨h.set x (.live _), ?_, upd _ _ _ ⟨rest, rfl⟩⟩
    simp only [stepR, step, unused hx, ho]; rfl
  | @copy x y v o hx hy =>
    obtain ⟨rest, ha⟩ := live hy
    refine ⟨h.set x (.live _), ?_, upd _ _ _ ⟨rest, rfl⟩⟩
    simp only [stepR, unused hx, ha, copyOf, and_self, if_true]; rfl
  | @assign x y w p v o hx hy =>
    obtain ⟨rest, ha⟩ := live hy
    obtain ⟨rest', hb⟩ := live hx
    refine ⟨h.set x (.live _), ?_, upd _ _ _ ⟨rest, rfl⟩⟩
    simp only [stepR, hb, ha, copyOf, and_self, if_true]; rfl
  | @destroy x v o hx =>
    obtain ⟨rest', hb⟩ := live hx
    refine ⟨h.set x .dead, ?_, upd _ _ _ trivial⟩
    simp only [stepR, step, hb]

theorem own_run (hmk : Writes mk size ok text) {σ σ' : State V} {ops : List (Op V)} (hs : Runs size ok σ ops σ')
    {h : Heap PtrObj} (hr : ∀ i, OwnCell text i (σ i) (h i)) :
    ∃ h', runR mk h ops = .ok h' ∧ ∀ i, OwnCell text i (σ' i) (h' i) := by
  induction hs generalizing h with
  | nil => exact ⟨h, rfl, hr⟩
  | cons h1 _ ih =>
    obtain ⟨h', e, hr'⟩ := own_step hmk h1 hr
    obtain ⟨h'', e', hr''⟩ := ih hr'
    exact ⟨h'', by rw [runR, e]; exact e', hr''⟩

theorem own_read {σ : State V} {h : Heap PtrObj} (hr : ∀ i, OwnCell text i (σ i) (h i)) {x : Nat} {v : V} {o : Nat}
    (hx : σ x = .live v o) : ptrRead h x = .ok (text v) := by
  obtain ⟨rest, hh⟩ := OwnCell.live (o := o) (hx ▸ hr x)
  simp only [ptrRead, hh, if_true, Nat.sub_zero]
  exact readN_prefix _ _

/-- An operation is meaningful or undefined. -/
theorem own_step_or (σ : State V) {h : Heap PtrObj} (hr : ∀ i, OwnCell text i (σ i) (h i)) (op : Op V)
    (hop : op.Possible size ok) : (∃ σ', Step size ok σ op σ') ∨ stepR mk h op = .ub ∧ ∀ σ', ¬ Step size ok σ op σ' := by
  have hc : ∀ i, (σ i = .unused ∧ h i = .unused) ∨ (σ i = .dead ∧ h i = .dead) ∨ ∃ v o p, σ i = .live v o ∧ h i = .live p := by
    intro i
    have := hr i
    cases hσ : σ i <;> cases hh : h i <;> rw [hσ, hh] at this <;> simp_all [OwnCell]
  cases op with
  | construct x junk v =>
    rcases hc x with ⟨a, b⟩ | ⟨a, b⟩ | ⟨w, o, p, a, b⟩
    · exact .inl ⟨_, .construct a hop.1 hop.2⟩
    · exact .inr ⟨by simp only [stepR, step, b], fun _ hs => by cases hs; simp_all⟩
    · exact .inr ⟨by simp only [stepR, step, b], fun _ hs => by cases hs; simp_all⟩
  | copy x y =>
    rcases hc x with ⟨a, b⟩ | ⟨a, b⟩ | ⟨w, o, p, a, b⟩ <;> rcases hc y with ⟨c, d⟩ | ⟨c, d⟩ | ⟨w', o', p', c, d⟩
    case inl.inr.inr => exact .inl ⟨_, .copy a c⟩
    all_goals exact .inr ⟨by simp only [stepR, b, d], fun _ hs => by cases hs; simp_all⟩
  | assign x y =>
    rcases hc x with ⟨a, b⟩ | ⟨a, b⟩ | ⟨w, o, p, a, b⟩ <;> rcases hc y with ⟨c, d⟩ | ⟨c, d⟩ | ⟨w', o', p', c, d⟩
    case inr.inr.inr.inr => exact .inl ⟨_, .assign a c⟩
    all_goals exact .inr ⟨by simp only [stepR, b, d], fun _ hs => by cases hs; simp_all⟩
  | destroy x =>
    rcases hc x with ⟨a, b⟩ | ⟨a, b⟩ | ⟨w, o, p, a, b⟩
    · exact .inr ⟨by simp only [stepR, step, b], fun _ hs => by cases hs; simp_all⟩
    · exact .inr ⟨by simp only [stepR, step, b], fun _ hs => by cases hs; simp_all⟩
    · exact .inl ⟨_, .destroy a⟩

theorem own_undefined (hmk : Writes mk size ok text) (ops : List (Op V)) (hops : ∀ op ∈ ops, op.Possible size ok)
    (σ : State V) {h : Heap PtrObj} (hr : ∀ i, OwnCell text i (σ i) (h i)) :
    (∃ σ', Runs size ok σ ops σ') ∨ runR mk h ops = .ub ∧ ∀ σ', ¬ Runs size ok σ ops σ' := by
  induction ops generalizing σ h with
  | nil => exact .inl ⟨σ, .nil⟩
  | cons op ops ih =>
    rcases own_step_or (mk := mk) σ hr op (hops op (by simp)) with ⟨σ', hs⟩ | ⟨e, hn⟩
    · obtain ⟨h', e, hr'⟩ := own_step hmk hs hr
      rcases ih (fun o ho => hops o (by simp [ho])) σ' hr' with ⟨σ'', hs'⟩ | ⟨e', hn⟩
      · exact .inl ⟨σ'', .cons hs hs'⟩
      · refine .inr ⟨by rw [runR, e]; exact e', fun σ'' hs' => ?_⟩
        cases hs' with
        | cons h1 h2 => rw [step_det h1 hs] at h2; exact hn _ h2
    · refine .inr ⟨by rw [runR, e]; rfl, fun σ'' hs' => ?_⟩
      cases hs' with
      | cons h1 h2 => exact hn _ h1

theorem own_undefined_iff (hmk : Writes mk size ok text) (ops : List (Op V)) (hops : ∀ op ∈ ops, op.Possible size ok) :
    runR mk .empty ops = .ub ↔ ¬ ∃ σ, Runs size ok .empty ops σ := by
  rcases own_undefined hmk ops hops .empty (h := .empty) (fun _ => trivial) with ⟨σ, hs⟩ | ⟨e, hn⟩
  · obtain ⟨h, e, -⟩ := own_run hmk hs (h := .empty) (fun _ => trivial)
    rw [e]
    exact ⟨fun h => (by cases h), fun h => (h ⟨σ, hs⟩).elim⟩
  · exact ⟨fun _ ⟨σ, hs⟩ => hn σ hs, fun _ => e⟩

end Objects

/-- The property C45 asks for (`CopiesIndependent`), of the repaired copies. -/
def CopiesIndependentR {V : Type} (mk : Nat → Bytes → V → Res PtrObj) (size : Nat) (ok : V → Prop)
    (text : V → Bytes) : Prop :=
  ∀ (ops : List (Op V)) (σ : State V), Runs size ok .empty ops σ →
    ∃ h, runR mk .empty ops = .ok h ∧ ∀ x v o, σ x = .live v o → ptrRead h x = .ok (text v)

theorem copies_independent {V : Type} {mk : Nat → Bytes → V → Res PtrObj} {size : Nat} {ok : V → Prop}
    {text : V → Bytes} (hmk : Writes mk size ok text) : CopiesIndependentR mk size ok text := by
  intro ops σ hs
  obtain ⟨h, e, hr⟩ := own_run hmk hs (h := .empty) (fun _ => trivial)
  exact ⟨h, e, fun x v o hx => own_read hr hx⟩

/-- C104, C45 in full: whatever the history of constructions, copies, assignments and destructions, every live object yields the
text of its value. -/
theorem C104_copies :
    (∀ p : Platform, p.Supported → CopiesIndependentR (placeInt (formatInt p)) INTEGER_SIZE (·.Fits p)
      (fun v => decimalText v.toInt)) ∧
    (∀ p : Platform, p.Supported → CopiesIndependentR (placeInt (formatEnum p)) INTEGER_SIZE (·.Fits p)
      (fun e => decimalText e.toInt)) ∧
    (∀ env : Env, EnvOk env → CopiesIndependentR (placeFloat (formatLd .default env)) FLOAT_SIZE (fun _ => True)
      (floatText env)) :=
  ⟨fun p hp => copies_independent (int_writes p hp), fun p hp => copies_independent (enum_writes p hp),
   fun _ henv => copies_independent (float_writes _ henv)⟩

/-- C104, the other histories: as with the present classes (`C45_undefined`), constructing over an object, copying or assigning
from one that is not live and destroying one twice are undefined, and nothing else is. -/
theorem C104_undefined :
    (∀ (p : Platform), p.Supported → ∀ ops : List (Op IntVal), (∀ op ∈ ops, op.Possible INTEGER_SIZE (·.Fits p)) →
      (runR (placeInt (formatInt p)) .empty ops = .ub ↔ ¬ ∃ σ, Runs INTEGER_SIZE (·.Fits p) .empty ops σ)) ∧
    (∀ (p : Platform), p.Supported → ∀ ops : List (Op EnumVal), (∀ op ∈ ops, op.Possible INTEGER_SIZE (·.Fits p)) →
      (runR (placeInt (formatEnum p)) .empty ops = .ub ↔ ¬ ∃ σ, Runs INTEGER_SIZE (·.Fits p) .empty ops σ)) ∧
    (∀ (env : Env), EnvOk env → ∀ ops : List (Op LVal), (∀ op ∈ ops, op.Possible FLOAT_SIZE (fun _ => True)) →
      (runR (placeFloat (formatLd .default env)) .empty ops = .ub ↔
        ¬ ∃ σ, Runs FLOAT_SIZE (fun _ => True) .empty ops σ)) :=
  ⟨fun p hp ops => own_undefined_iff (int_writes p hp) ops, fun p hp ops => own_undefined_iff (enum_writes p hp) ops,
   fun env henv ops => own_undefined_iff (float_writes env henv) ops⟩

/-- Assigning from a destroyed object is such a history. -/
example : runR (placeInt (formatInt lp64)) .empty
    [.construct 0 (List.replicate 22 9) (.i32 1), .copy 1 0, .destroy 0, .assign 1 0] = .ub := by rfl

theorem formatCallR_ok {V : Type} {mk : Nat → Bytes → V → Res PtrObj} {size : Nat} {ok : V → Prop} {text : V → Bytes}
    (hmk : Writes mk size ok text) (elide : Bool) (junk : Bytes) (hj : junk.length = size) (v : V) (hv : ok v) :
    formatCallR elide mk junk v = .ok (text v) := by
  unfold formatCallR
  cases elide
  · obtain ⟨h, e, hx⟩ := copies_independent hmk [.construct 0 junk v, .copy 1 0, .destroy 0]
      (((State.empty.set 0 (.live v 0)).set 1 (.live v 0)).set 0 .dead)
      (.cons (.construct rfl hj hv) (.cons (.copy (v := v) (o := 0) rfl rfl) (.cons (.destroy (v := v) (o := 0) rfl) .nil)))
    rw [if_neg (by decide), e]
    exact hx 1 v 0 rfl
  · obtain ⟨h, e, hx⟩ := copies_independent hmk [.construct 1 junk v] (State.empty.set 1 (.live v 1))
      (.cons (.construct rfl hj hv) .nil)
    rw [if_pos rfl, e]
    exact hx 1 v 1 rfl

/-- C104, C57 in full: the text does not depend on whether the compiler elides the copy. -/
theorem C104_elision (elide : Bool) :
    (∀ (p : Platform), p.Supported → ∀ junk, junk.length = INTEGER_SIZE → ∀ v : IntVal, v.Fits p →
      formatCallR elide (placeInt (formatInt p)) junk v = .ok (decimalText v.toInt)) ∧
    (∀ (p : Platform), p.Supported → ∀ junk, junk.length = INTEGER_SIZE → ∀ v : EnumVal, v.Fits p →
      formatCallR elide (placeInt (formatEnum p)) junk v = .ok (decimalText v.toInt)) ∧
    (∀ (env : Env), EnvOk env → ∀ junk, junk.length = FLOAT_SIZE → ∀ x : LVal,
      formatCallR elide (placeFloat (formatLd .default env)) junk x = .ok (floatText env x)) :=
  ⟨fun p hp junk hj v hv => formatCallR_ok (int_writes p hp) elide junk hj v hv,
   fun p hp junk hj v hv => formatCallR_ok (enum_writes p hp) elide junk hj v hv,
   fun _ henv junk hj x => formatCallR_ok (float_writes _ henv) elide junk hj x trivial⟩

/-- C104, the repair changes nothing else: an object that was constructed and is not a copy reads the same under both. -/
theorem C104_same_uncopied {V : Type} (mk : Nat → Bytes → V → Res PtrObj) (h : Heap PtrObj) (ops : List (Op V))
    (hops : ∀ op ∈ ops, (∃ x junk v, op = .construct x junk v) ∨ ∃ x, op = .destroy x) :
    runR mk h ops = run mk h ops := by
  induction ops generalizing h with
  | nil => rfl
  | cons op ops ih =>
    have e : stepR mk h op = step mk h op := by
      rcases hops op (by simp) with ⟨x, junk, v, rfl⟩ | ⟨x, rfl⟩ <;> rfl
    rw [runR, run, e]
    congr 1
    funext k
    exact ih k fun o ho => hops o (by simp [ho])

/-- The histories of `C45_refuted` and `C45_wrong_text`: copy and destroy the original; copy and assign to the original; and a self-assignment. -/
example : (runR (placeInt (formatInt lp64)) .empty
      [.construct 0 (List.replicate 22 9) (.i32 7), .copy 1 0, .destroy 0] >>= (ptrRead · 1)) = .ok (ascii "7") ∧
    (runR (placeInt (formatInt lp64)) .empty
      [.construct 0 (List.replicate 22 9) (.i32 1), .construct 1 (List.replicate 22 8) (.i32 2), .copy 2 0, .assign 0 1,
        .assign 2 2] >>= (ptrRead · 2)) = .ok (ascii "1") ∧
    formatCallR false (placeInt (formatInt lp64)) (List.replicate 22 9) (.i32 (-42)) = .ok (ascii "-42") := by decide +kernel

end Lexi
