import Verif.Proofs.Objects
import Verif.Props.Int
import Verif.Props.Scalar
import Verif.Props.Float
import Verif.Proofs.Strict

/-!
# Formatter objects as values: C44, C45, C57
-/

namespace Lexi
open Spec Spec.History Objects Dtoa

/-! ## C44 -/

/-- C44.  After any history of constructions, copies, assignments and destructions, every live `FormatBool`
yields the text of the value it was last constructed, copied or assigned from; likewise `FormatNull` and
`FormatChar`. -/
theorem C44_bool {ops : List (Op Bool)} {σ : State Bool} (hs : Runs BOOL_SIZE (fun _ => True) .empty ops σ) :
    ∃ h, run (fun _ => formatBool .default) .empty ops = .ok h ∧
      ∀ x b o, σ x = .live b o → plainRead BoolObj.string h x = .ok (ascii (if b then "true" else "false")) := by
  refine plain_correct (fun junk b hj _ => ?_) hs
  have h := C10_bool_format junk hj b
  unfold stringBool at h
  cases hf : formatBool .default junk b with
  | ok o => rw [hf] at h; exact ⟨o, rfl, h⟩
  | throws => rw [hf] at h; cases h
  | ub => rw [hf] at h; cases h

theorem C44_null {ops : List (Op Unit)} {σ : State Unit} (hs : Runs NULL_SIZE (fun _ => True) .empty ops σ) :
    ∃ h, run (fun _ junk _ => formatNull .default junk) .empty ops = .ok h ∧
      ∀ x u o, σ x = .live u o → plainRead NullObj.string h x = .ok (ascii "null") := by
  refine plain_correct (mk := fun junk _ => formatNull .default junk) (text := fun _ => ascii "null")
    (fun junk b hj _ => ?_) hs
  have h := (C11_null junk hj []).1
  unfold stringNull at h
  cases hf : formatNull .default junk with
  | ok o => rw [hf] at h; exact ⟨o, rfl, h⟩
  | throws => rw [hf] at h; cases h
  | ub => rw [hf] at h; cases h

theorem C44_char {ops : List (Op UInt8)} {σ : State UInt8} (hs : Runs CHAR_SIZE (fun _ => True) .empty ops σ) :
    ∃ h, run (fun _ => formatChar) .empty ops = .ok h ∧
      ∀ x c o, σ x = .live c o → plainRead CharObj.string h x = .ok [c] := by
  refine plain_correct (text := fun c => [c]) (fun junk b hj _ => ?_) hs
  have h := (C12_char junk hj b).1
  unfold stringChar at h
  cases hf : formatChar junk b with
  | ok o => rw [hf] at h; exact ⟨o, rfl, h⟩
  | throws => rw [hf] at h; cases h
  | ub => rw [hf] at h; cases h

/-! ## C45 -/

theorem decimalText_no_nul (n : ℤ) : (0 : UInt8) ∉ decimalText n := by
  by_cases h : n < 0
  · rw [decimalText_neg n h]
    intro hm
    rcases List.mem_cons.mp hm with h' | h'
    · exact absurd h' (by decide)
    · exact digit_ne_zero (decN_digits _ _ h') rfl
  · rw [decimalText_nonneg n (by omega)]
    exact fun h' => digit_ne_zero (decN_digits _ _ h') rfl

theorem int_writes (p : Platform) (hp : p.Supported) :
    Writes (placeInt (formatInt p)) INTEGER_SIZE (·.Fits p) (fun v => decimalText v.toInt) := by
  intro x junk v hj hv
  exact ⟨_, by rw [placeInt, formatInt_eq p hp junk hj v hv]; rfl⟩

theorem enum_writes (p : Platform) (hp : p.Supported) :
    Writes (placeInt (formatEnum p)) INTEGER_SIZE (·.Fits p) (fun e => decimalText e.toInt) := by
  intro x junk e hj he
  exact ⟨_, by rw [placeInt, formatEnum_eq p hp junk hj e he]; rfl⟩

/-- What a fresh `FormatFloat` of the value yields. -/
def floatText (env : Env) (x : LVal) : Bytes :=
  match formatLd .default env (List.replicate FLOAT_SIZE 0) x >>= FloatObj.string with
  | .ok t => t
  | _ => []

theorem text_no_nul (n : JNumber) (hn : n.WF) : (0 : UInt8) ∉ n.text := by
  rw [text_eq]
  intro h
  rcases List.mem_append.mp h with h | h
  · split at h
    · simp at h
    · simp at h
  · exact number_bytes n hn 0 h rfl

theorem floatText_spec (env : Env) (henv : EnvOk env) (x : LVal) :
    (0 : UInt8) ∉ floatText env x ∧ ∀ junk, junk.length = FLOAT_SIZE →
      formatLd .default env junk x =
        .ok ⟨floatText env x ++ 0 :: junk.drop ((floatText env x).length + 1), 0, (floatText env x).length⟩ := by
  have key : ∃ t : Bytes, (0 : UInt8) ∉ t ∧ ∀ junk, junk.length = FLOAT_SIZE →
      formatLd .default env junk x = .ok ⟨t ++ 0 :: junk.drop (t.length + 1), 0, t.length⟩ := by
    have hF : FLOAT_SIZE = 30 := rfl
    rcases class_cases x.toDouble with hf | hi | hn
    · by_cases hz : DZero x.toDouble
      · exact ⟨[48, 46, 48], by decide, fun junk hj => formatLd_zero env x hz _ junk hj⟩
      · obtain ⟨D, k, hP, h⟩ := formatLd_finite env henv x.toDouble hf hz
        refine ⟨_, ?_, fun junk hj => h x rfl _ junk hj⟩
        have := text_no_nul _ (hP.WF hz (decide (dNeg x.toDouble)))
        rw [prettyNumber_text] at this
        simpa [signed] using this
    · by_cases hn : dNeg x.toDouble
      · refine ⟨Literals.default.negInfinity, by decide, fun junk hj => ?_⟩
        rw [formatLd_inf env x hi]
        simp only [hn, if_true]
        exact stringLit _ _ (by decide) (by rw [hj, hF]; decide)
      · refine ⟨Literals.default.infinity, by decide, fun junk hj => ?_⟩
        rw [formatLd_inf env x hi]
        simp only [hn, if_false]
        exact stringLit _ _ (by decide) (by rw [hj, hF]; decide)
    · refine ⟨Literals.default.nan, by decide, fun junk hj => ?_⟩
      rw [formatLd_nan env x hn]
      exact stringLit _ _ (by decide) (by rw [hj, hF]; decide)
  obtain ⟨t, h0, h⟩ := key
  have e : floatText env x = t := by
    unfold floatText
    rw [h _ (by simp)]
    simp only [Res.ok_bind]
    have : FloatObj.string ⟨t ++ 0 :: (List.replicate FLOAT_SIZE 0).drop (t.length + 1), 0, t.length⟩ = .ok t :=
      readN_prefix t _
    rw [this]
  rw [e]
  exact ⟨h0, h⟩

theorem float_writes (env : Env) (henv : EnvOk env) :
    Writes (placeFloat (formatLd .default env)) FLOAT_SIZE (fun _ => True) (floatText env) := by
  intro x junk v hj _
  exact ⟨_, by rw [placeFloat, (floatText_spec env henv v).2 junk hj]; rfl⟩

/-- The property C45 claims for a class with pointers: whatever the history, every live object yields the text of its value. -/
def CopiesIndependent {V : Type} (mk : Nat → Bytes → V → Res PtrObj) (size : Nat) (ok : V → Prop)
    (text : V → Bytes) : Prop :=
  ∀ (ops : List (Op V)) (σ : State V), Runs size ok .empty ops σ →
    ∃ h, run mk .empty ops = .ok h ∧ ∀ x v o, σ x = .live v o → ptrRead h x = .ok (text v)

/-- C45 is false for every one of the classes: copy an object, destroy the original, and the copy has undefined
behaviour. -/
theorem copies_not_independent {V : Type} {mk : Nat → Bytes → V → Res PtrObj} {size : Nat} {ok : V → Prop}
    {text : V → Bytes} (hmk : Writes mk size ok text) (v : V) (hv : ok v) : ¬ CopiesIndependent mk size ok text := by
  intro hc
  obtain ⟨junk, hj⟩ : ∃ junk : Bytes, junk.length = size := ⟨List.replicate size 0, by simp⟩
  have hr : Runs size ok .empty [.construct 0 junk v, .copy 1 0, .destroy 0]
      (((State.empty.set 0 (.live v 0)).set 1 (.live v 0)).set 0 .dead) := by
    refine .cons (.construct rfl hj hv) (.cons (.copy (v := v) (o := 0) rfl rfl) (.cons (.destroy (v := v) (o := 0) rfl) .nil))
  obtain ⟨h, e, hx⟩ := hc _ _ hr
  have h1 := hx 1 v 0 rfl
  obtain ⟨h', e', hx'⟩ := ptr_run hmk hr (h := .empty) (fun i => trivial)
  rw [e] at e'
  cases e'
  rcases ptr_read hx' (x := 1) (v := v) (o := 0) rfl with ⟨-, h2⟩ | ⟨w, p, rest, h2, -⟩
  · rw [h1] at h2; cases h2
  · exact absurd h2 (by simp [State.set])

theorem C45_refuted :
    (∀ p : Platform, p.Supported → ¬ CopiesIndependent (placeInt (formatInt p)) INTEGER_SIZE (·.Fits p)
      (fun v => decimalText v.toInt)) ∧
    (∀ p : Platform, p.Supported → ¬ CopiesIndependent (placeInt (formatEnum p)) INTEGER_SIZE (·.Fits p)
      (fun e => decimalText e.toInt)) ∧
    (∀ env : Env, EnvOk env → ¬ CopiesIndependent (placeFloat (formatLd .default env)) FLOAT_SIZE (fun _ => True)
      (floatText env)) :=
  ⟨fun p hp => copies_not_independent (int_writes p hp) (.i32 7) trivial,
   fun p hp => copies_not_independent (enum_writes p hp) (.bool true) trivial,
   fun env henv => copies_not_independent (float_writes env henv) .nan trivial⟩

/-- C45, wrong text without any destruction: `a = 1, b = 2, c = copy of a, a = b` makes `c` print `2`. -/
theorem C45_wrong_text (p : Platform) (hp : p.Supported) :
    ∃ (ops : List (Op IntVal)) (σ : State IntVal) (h : Heap PtrObj),
      Runs INTEGER_SIZE (·.Fits p) .empty ops σ ∧ run (placeInt (formatInt p)) .empty ops = .ok h ∧
      σ 2 = .live (.i32 1) 0 ∧ ptrRead h 2 = .ok (ascii "2") := by
  obtain ⟨junk, hj⟩ : ∃ junk : Bytes, junk.length = INTEGER_SIZE := ⟨List.replicate INTEGER_SIZE 0, by simp⟩
  have hr : Runs INTEGER_SIZE (fun v : IntVal => v.Fits p) .empty
      [.construct 0 junk (.i32 1), .construct 1 junk (.i32 2), .copy 2 0, .assign 0 1]
      ((((State.empty.set 0 (.live (.i32 1) 0)).set 1 (.live (.i32 2) 1)).set 2 (.live (.i32 1) 0)).set 0
        (.live (.i32 2) 1)) := by
    refine .cons (.construct rfl hj trivial) (.cons (.construct rfl hj trivial)
      (.cons (.copy (v := .i32 1) (o := 0) rfl rfl) (.cons (.assign (w := .i32 1) (p := 0) (v := .i32 2) (o := 1) rfl rfl) .nil)))
  obtain ⟨h, e, hx⟩ := ptr_run (int_writes p hp) hr (h := .empty) (fun i => trivial)
  refine ⟨_, _, h, hr, e, rfl, ?_⟩
  rcases ptr_read hx (x := 2) (v := .i32 1) (o := 0) rfl with ⟨h1, -⟩ | ⟨w, q, rest, h1, h2⟩
  · exact absurd h1 (by simp [State.set])
  · have hw : w = .i32 2 := by
      have : (Cell.live w q : Cell IntVal) = .live (.i32 2) 1 := h1.symm
      injection this
    subst hw
    rw [h2]
    have t1 : decimalText (IntVal.i32 1).toInt = [49] := by decide
    have t2 : decimalText (IntVal.i32 2).toInt = [50] := by decide
    rw [t1, t2]
    rfl

/-- C45, what does hold, exactly (`_partial`: the property asks for the right text always). An object whose
origin — the object its pointers came from — has been destroyed has undefined behaviour; otherwise it yields the right
text exactly when that is a prefix of the text of the value its origin holds now. -/
theorem C45_int_exact_partial (p : Platform) (hp : p.Supported) {ops : List (Op IntVal)} {σ : State IntVal}
    (hs : Runs INTEGER_SIZE (·.Fits p) .empty ops σ) :
    ∃ h, run (placeInt (formatInt p)) .empty ops = .ok h ∧ ∀ x v o, σ x = .live v o →
      (σ o = .dead ∧ ptrRead h x = .ub) ∨
      ∃ w q, σ o = .live w q ∧
        (ptrRead h x = .ok (decimalText v.toInt) ↔ decimalText v.toInt <+: decimalText w.toInt) :=
  ptr_correct (int_writes p hp) (fun _ => decimalText_no_nul _) hs

theorem C45_enum_exact_partial (p : Platform) (hp : p.Supported) {ops : List (Op EnumVal)} {σ : State EnumVal}
    (hs : Runs INTEGER_SIZE (·.Fits p) .empty ops σ) :
    ∃ h, run (placeInt (formatEnum p)) .empty ops = .ok h ∧ ∀ x v o, σ x = .live v o →
      (σ o = .dead ∧ ptrRead h x = .ub) ∨
      ∃ w q, σ o = .live w q ∧
        (ptrRead h x = .ok (decimalText v.toInt) ↔ decimalText v.toInt <+: decimalText w.toInt) :=
  ptr_correct (enum_writes p hp) (fun _ => decimalText_no_nul _) hs

theorem C45_float_exact_partial (env : Env) (henv : EnvOk env) {ops : List (Op LVal)} {σ : State LVal}
    (hs : Runs FLOAT_SIZE (fun _ => True) .empty ops σ) :
    ∃ h, run (placeFloat (formatLd .default env)) .empty ops = .ok h ∧ ∀ x v o, σ x = .live v o →
      (σ o = .dead ∧ ptrRead h x = .ub) ∨
      ∃ w q, σ o = .live w q ∧ (ptrRead h x = .ok (floatText env v) ↔ floatText env v <+: floatText env w) :=
  ptr_correct (float_writes env henv) (fun v => (floatText_spec env henv v).1) hs

/-- C45, the safe uses: an object that is its own origin (constructed, and not assigned from another object) always
yields its text, whatever happens to the others. -/
theorem own_origin_right {V : Type} {mk : Nat → Bytes → V → Res PtrObj} {size : Nat} {ok : V → Prop}
    {text : V → Bytes} (hmk : Writes mk size ok text) {ops : List (Op V)} {σ : State V}
    (hs : Runs size ok .empty ops σ) :
    ∃ h, run mk .empty ops = .ok h ∧ ∀ x v, σ x = .live v x → ptrRead h x = .ok (text v) := by
  obtain ⟨h, e, hr⟩ := ptr_run hmk hs (h := .empty) (fun i => trivial)
  refine ⟨h, e, fun x v hx => ?_⟩
  rcases ptr_read hr hx with ⟨h1, -⟩ | ⟨w, p, rest, h1, h2⟩
  · rw [hx] at h1; cases h1
  · rw [hx] at h1
    injection h1 with h1 _
    subst h1
    rw [h2]
    exact readN_prefix _ _

theorem C45_own_origin_partial :
    (∀ (p : Platform), p.Supported → ∀ (ops : List (Op IntVal)) (σ : State IntVal),
      Runs INTEGER_SIZE (·.Fits p) .empty ops σ → ∃ h, run (placeInt (formatInt p)) .empty ops = .ok h ∧
        ∀ x v, σ x = .live v x → ptrRead h x = .ok (decimalText v.toInt)) ∧
    (∀ (p : Platform), p.Supported → ∀ (ops : List (Op EnumVal)) (σ : State EnumVal),
      Runs INTEGER_SIZE (·.Fits p) .empty ops σ → ∃ h, run (placeInt (formatEnum p)) .empty ops = .ok h ∧
        ∀ x v, σ x = .live v x → ptrRead h x = .ok (decimalText v.toInt)) ∧
    (∀ (env : Env), EnvOk env → ∀ (ops : List (Op LVal)) (σ : State LVal),
      Runs FLOAT_SIZE (fun _ => True) .empty ops σ → ∃ h, run (placeFloat (formatLd .default env)) .empty ops = .ok h ∧
        ∀ x v, σ x = .live v x → ptrRead h x = .ok (floatText env v)) :=
  ⟨fun p hp _ _ hs => own_origin_right (int_writes p hp) hs, fun p hp _ _ hs => own_origin_right (enum_writes p hp) hs,
   fun _ henv _ _ hs => own_origin_right (float_writes _ henv) hs⟩

/-- C44 and C45, the other histories: constructing over an object, copying or assigning from one that is not live and
destroying one twice are undefined for every class, and nothing else is undefined before an object is read. -/
theorem C44_undefined :
    (∀ ops : List (Op Bool), (∀ op ∈ ops, op.Possible BOOL_SIZE (fun _ => True)) →
      (run (fun _ => formatBool .default) .empty ops = .ub ↔ ¬ ∃ σ, Runs BOOL_SIZE (fun _ => True) .empty ops σ)) ∧
    (∀ ops : List (Op Unit), (∀ op ∈ ops, op.Possible NULL_SIZE (fun _ => True)) →
      (run (fun _ junk _ => formatNull .default junk) .empty ops = .ub ↔
        ¬ ∃ σ, Runs NULL_SIZE (fun _ => True) .empty ops σ)) ∧
    (∀ ops : List (Op UInt8), (∀ op ∈ ops, op.Possible CHAR_SIZE (fun _ => True)) →
      (run (fun _ => formatChar) .empty ops = .ub ↔ ¬ ∃ σ, Runs CHAR_SIZE (fun _ => True) .empty ops σ)) := by
  refine ⟨fun ops => undefined_iff (fun x junk b hj _ => ?_) ops, fun ops => undefined_iff (fun x junk b hj _ => ?_) ops,
    fun ops => undefined_iff (fun x junk b hj _ => ?_) ops⟩
  · have h := C10_bool_format junk hj b
    unfold stringBool at h
    cases hf : formatBool .default junk b with
    | ok o => exact ⟨o, rfl⟩
    | throws => rw [hf] at h; cases h
    | ub => rw [hf] at h; cases h
  · have h := (C11_null junk hj []).1
    unfold stringNull at h
    cases hf : formatNull .default junk with
    | ok o => exact ⟨o, rfl⟩
    | throws => rw [hf] at h; cases h
    | ub => rw [hf] at h; cases h
  · have h := (C12_char junk hj b).1
    unfold stringChar at h
    cases hf : formatChar junk b with
    | ok o => exact ⟨o, rfl⟩
    | throws => rw [hf] at h; cases h
    | ub => rw [hf] at h; cases h

theorem C45_undefined :
    (∀ (p : Platform), p.Supported → ∀ ops : List (Op IntVal), (∀ op ∈ ops, op.Possible INTEGER_SIZE (·.Fits p)) →
      (run (placeInt (formatInt p)) .empty ops = .ub ↔ ¬ ∃ σ, Runs INTEGER_SIZE (·.Fits p) .empty ops σ)) ∧
    (∀ (p : Platform), p.Supported → ∀ ops : List (Op EnumVal), (∀ op ∈ ops, op.Possible INTEGER_SIZE (·.Fits p)) →
      (run (placeInt (formatEnum p)) .empty ops = .ub ↔ ¬ ∃ σ, Runs INTEGER_SIZE (·.Fits p) .empty ops σ)) ∧
    (∀ (env : Env), EnvOk env → ∀ ops : List (Op LVal), (∀ op ∈ ops, op.Possible FLOAT_SIZE (fun _ => True)) →
      (run (placeFloat (formatLd .default env)) .empty ops = .ub ↔
        ¬ ∃ σ, Runs FLOAT_SIZE (fun _ => True) .empty ops σ)) :=
  ⟨fun p hp ops => undefined_iff (fun x junk v hj hv => (int_writes p hp x junk v hj hv).imp' _ fun _ => id) ops,
   fun p hp ops => undefined_iff (fun x junk v hj hv => (enum_writes p hp x junk v hj hv).imp' _ fun _ => id) ops,
   fun env henv ops => undefined_iff (fun x junk v hj hv => (float_writes env henv x junk v hj hv).imp' _ fun _ => id) ops⟩

theorem plain_not_live {V α : Type} {mk : Bytes → V → Res α} {read : α → Res Bytes} {text : V → Bytes} {size : ℕ}
    {ok : V → Prop}
    (hmk : ∀ junk v, junk.length = size → ok v → ∃ o, mk junk v = .ok o ∧ read o = .ok (text v))
    {ops : List (Op V)} {σ : State V} (hs : Runs size ok .empty ops σ) :
    ∃ h, run (fun _ => mk) .empty ops = .ok h ∧
      ∀ x, (∀ v o, σ x ≠ .live v o) → plainRead read h x = .ub := by
  obtain ⟨h, e, hr⟩ := plain_run hmk hs (h := .empty) (fun i => trivial)
  refine ⟨h, e, fun x hx => ?_⟩
  have := hr x
  unfold plainRead
  cases hh : h x with
  | live a =>
    rw [hh] at this
    cases hc : σ x with
    | live v o => exact absurd hc (hx v o)
    | unused => rw [hc] at this; exact this.elim
    | dead => rw [hc] at this; exact this.elim
  | unused => rfl
  | dead => rfl

/-- C44 and C45.  Reading an object that does not exist yet or no more is undefined for every class. -/
theorem C44_not_live :
    (∀ (ops : List (Op Bool)) (σ : State Bool), Runs BOOL_SIZE (fun _ => True) .empty ops σ →
      ∃ h, run (fun _ => formatBool .default) .empty ops = .ok h ∧
        ∀ x, (∀ v o, σ x ≠ .live v o) → plainRead BoolObj.string h x = .ub) ∧
    (∀ (ops : List (Op Unit)) (σ : State Unit), Runs NULL_SIZE (fun _ => True) .empty ops σ →
      ∃ h, run (fun _ junk _ => formatNull .default junk) .empty ops = .ok h ∧
        ∀ x, (∀ v o, σ x ≠ .live v o) → plainRead NullObj.string h x = .ub) ∧
    (∀ (ops : List (Op UInt8)) (σ : State UInt8), Runs CHAR_SIZE (fun _ => True) .empty ops σ →
      ∃ h, run (fun _ => formatChar) .empty ops = .ok h ∧
        ∀ x, (∀ v o, σ x ≠ .live v o) → plainRead CharObj.string h x = .ub) :=
  ⟨fun _ _ hs => plain_not_live (fun _ b hj _ => bind_ok (C10_bool_format _ hj b)) hs,
   fun _ _ hs => plain_not_live (mk := fun junk _ => formatNull .default junk) (text := fun _ => ascii "null")
     (fun _ _ hj _ => bind_ok (C11_null _ hj []).1) hs,
   fun _ _ hs => plain_not_live (text := fun c => [c]) (fun _ c hj _ => bind_ok (C12_char _ hj c).1) hs⟩

theorem ptr_not_live {V : Type} {mk : Nat → Bytes → V → Res PtrObj} {size : ℕ} {ok : V → Prop} {text : V → Bytes}
    (hmk : Writes mk size ok text) {ops : List (Op V)} {σ : State V} (hs : Runs size ok .empty ops σ) :
    ∃ h, run mk .empty ops = .ok h ∧ ∀ x, (∀ v o, σ x ≠ .live v o) → ptrRead h x = .ub := by
  obtain ⟨h, e, hr⟩ := ptr_run hmk hs (h := .empty) (fun i => trivial)
  refine ⟨h, e, fun x hx => ?_⟩
  have := hr x
  unfold ptrRead
  cases hh : h x with
  | live a =>
    rw [hh] at this
    cases hc : σ x with
    | live v o => exact absurd hc (hx v o)
    | unused => rw [hc] at this; exact this.elim
    | dead => rw [hc] at this; exact this.elim
  | unused => rfl
  | dead => rfl

theorem C45_not_live :
    (∀ (p : Platform), p.Supported → ∀ (ops : List (Op IntVal)) (σ : State IntVal),
      Runs INTEGER_SIZE (·.Fits p) .empty ops σ → ∃ h, run (placeInt (formatInt p)) .empty ops = .ok h ∧
        ∀ x, (∀ v o, σ x ≠ .live v o) → ptrRead h x = .ub) ∧
    (∀ (p : Platform), p.Supported → ∀ (ops : List (Op EnumVal)) (σ : State EnumVal),
      Runs INTEGER_SIZE (·.Fits p) .empty ops σ → ∃ h, run (placeInt (formatEnum p)) .empty ops = .ok h ∧
        ∀ x, (∀ v o, σ x ≠ .live v o) → ptrRead h x = .ub) ∧
    (∀ (env : Env), EnvOk env → ∀ (ops : List (Op LVal)) (σ : State LVal),
      Runs FLOAT_SIZE (fun _ => True) .empty ops σ → ∃ h, run (placeFloat (formatLd .default env)) .empty ops = .ok h ∧
        ∀ x, (∀ v o, σ x ≠ .live v o) → ptrRead h x = .ub) :=
  ⟨fun p hp _ _ hs => ptr_not_live (int_writes p hp) hs, fun p hp _ _ hs => ptr_not_live (enum_writes p hp) hs,
   fun _ henv _ _ hs => ptr_not_live (float_writes _ henv) hs⟩

/-- A copy of a destroyed object is such a history, and so is destroying twice. -/
example : run (fun _ => formatBool .default) .empty
    [.construct 0 (List.replicate BOOL_SIZE 7) true, .destroy 0, .copy 1 0] = .ub ∧
    run (fun _ => formatBool .default) .empty
      [.construct 0 (List.replicate BOOL_SIZE 7) true, .destroy 0, .destroy 0] = .ub := ⟨rfl, rfl⟩

/-! ## C57 -/

theorem formatCall_elided {V : Type} {mk : Nat → Bytes → V → Res PtrObj} {size : Nat} {ok : V → Prop}
    {text : V → Bytes} (hmk : Writes mk size ok text) (junk : Bytes) (hj : junk.length = size) (v : V) (hv : ok v) :
    formatCall true mk ptrRead junk v = .ok (text v) := by
  obtain ⟨h, e, hx⟩ := own_origin_right hmk (ops := [.construct 1 junk v]) (σ := State.empty.set 1 (.live v 1))
    (.cons (.construct rfl hj hv) .nil)
  unfold formatCall
  rw [if_pos rfl, e]
  exact hx 1 v rfl

theorem formatCall_copied {V : Type} {mk : Nat → Bytes → V → Res PtrObj} {size : Nat} {ok : V → Prop}
    {text : V → Bytes} (hmk : Writes mk size ok text) (junk : Bytes) (hj : junk.length = size) (v : V) (hv : ok v) :
    formatCall false mk ptrRead junk v = .ub := by
  have hr : Runs size ok .empty [.construct 0 junk v, .copy 1 0, .destroy 0]
      (((State.empty.set 0 (.live v 0)).set 1 (.live v 0)).set 0 .dead) := by
    refine .cons (.construct rfl hj hv) (.cons (.copy (v := v) (o := 0) rfl rfl) (.cons (.destroy (v := v) (o := 0) rfl) .nil))
  obtain ⟨h, e, hx⟩ := ptr_run hmk hr (h := .empty) (fun i => trivial)
  unfold formatCall
  rw [if_neg (by decide), e]
  rcases ptr_read hx (x := 1) (v := v) (o := 0) rfl with ⟨-, h2⟩ | ⟨w, p, rest, h2, -⟩
  · exact h2
  · exact absurd h2 (by simp [State.set])

/-- C57.  `lexi::string` (likewise `lexi::lexi(t)`, `escape`, `jsonify`) of integers, enumerations, stream positions
and floating-point numbers is defined only when the compiler elides the copy of the returned formatter: elided, it is the
text; not elided, the text is read from a destroyed temporary. -/
theorem C57_needs_elision :
    (∀ (p : Platform), p.Supported → ∀ junk, junk.length = INTEGER_SIZE → ∀ v : IntVal, v.Fits p →
      formatCall true (placeInt (formatInt p)) ptrRead junk v = .ok (decimalText v.toInt) ∧
      formatCall false (placeInt (formatInt p)) ptrRead junk v = .ub) ∧
    (∀ (p : Platform), p.Supported → ∀ junk, junk.length = INTEGER_SIZE → ∀ v : EnumVal, v.Fits p →
      formatCall true (placeInt (formatEnum p)) ptrRead junk v = .ok (decimalText v.toInt) ∧
      formatCall false (placeInt (formatEnum p)) ptrRead junk v = .ub) ∧
    (∀ (env : Env), EnvOk env → ∀ junk, junk.length = FLOAT_SIZE → ∀ x : LVal,
      formatCall true (placeFloat (formatLd .default env)) ptrRead junk x = .ok (floatText env x) ∧
      formatCall false (placeFloat (formatLd .default env)) ptrRead junk x = .ub) :=
  ⟨fun p hp junk hj v hv => ⟨formatCall_elided (int_writes p hp) junk hj v hv, formatCall_copied (int_writes p hp) junk hj v hv⟩,
   fun p hp junk hj v hv => ⟨formatCall_elided (enum_writes p hp) junk hj v hv, formatCall_copied (enum_writes p hp) junk hj v hv⟩,
   fun env henv junk hj x => ⟨formatCall_elided (float_writes env henv) junk hj x trivial,
     formatCall_copied (float_writes env henv) junk hj x trivial⟩⟩

/-- C57, the classes without pointers do not depend on elision. -/
theorem C57_plain (elide : Bool) :
    (∀ junk, junk.length = BOOL_SIZE → ∀ b : Bool,
      formatCall elide (fun _ => formatBool .default) (plainRead BoolObj.string) junk b =
        .ok (ascii (if b then "true" else "false"))) ∧
    (∀ junk, junk.length = NULL_SIZE → ∀ u : Unit,
      formatCall elide (fun _ junk (_ : Unit) => formatNull .default junk) (plainRead NullObj.string) junk u = .ok (ascii "null")) ∧
    (∀ junk, junk.length = CHAR_SIZE → ∀ c : UInt8,
      formatCall elide (fun _ => formatChar) (plainRead CharObj.string) junk c = .ok [c]) := by
  have runs : ∀ {V : Type} (size : Nat) (junk : Bytes) (v : V), junk.length = size →
      ∃ σ : State V, Runs size (fun _ => True) .empty
        (if elide then [.construct 1 junk v] else [.construct 0 junk v, .copy 1 0, .destroy 0]) σ ∧ ∃ o, σ 1 = .live v o := by
    intro V size junk v hj
    cases elide
    · exact ⟨((State.empty.set 0 (.live v 0)).set 1 (.live v 0)).set 0 .dead,
        .cons (.construct rfl hj trivial) (.cons (.copy (v := v) (o := 0) rfl rfl) (.cons (.destroy (v := v) (o := 0) rfl) .nil)), 0, rfl⟩
    · exact ⟨State.empty.set 1 (.live v 1), .cons (.construct rfl hj trivial) .nil, 1, rfl⟩
  refine ⟨fun junk hj b => ?_, fun junk hj u => ?_, fun junk hj c => ?_⟩
  · obtain ⟨σ, hr, o, ho⟩ := runs BOOL_SIZE junk b hj
    obtain ⟨h, e, hx⟩ := C44_bool hr
    unfold formatCall
    rw [e]
    exact hx 1 b o ho
  · obtain ⟨σ, hr, o, ho⟩ := runs NULL_SIZE junk u hj
    obtain ⟨h, e, hx⟩ := C44_null hr
    unfold formatCall
    rw [e]
    exact hx 1 u o ho
  · obtain ⟨σ, hr, o, ho⟩ := runs CHAR_SIZE junk c hj
    obtain ⟨h, e, hx⟩ := C44_char hr
    unfold formatCall
    rw [e]
    exact hx 1 c o ho

/-! ### Inhabited hypotheses -/

/-- A history with copies, assignment and destruction. -/
example : ∃ σ : State Bool, Runs BOOL_SIZE (fun _ => True) .empty
    [.construct 0 [1, 2, 3, 4, 5, 6] true, .construct 1 [0, 0, 0, 0, 0, 0] false, .copy 2 0, .assign 0 1, .destroy 1] σ ∧
    σ 0 = .live false 1 ∧ σ 2 = .live true 0 :=
  ⟨_, .cons (.construct rfl rfl trivial) (.cons (.construct rfl rfl trivial) (.cons (.copy (v := true) (o := 0) rfl rfl)
    (.cons (.assign (w := true) (p := 0) (v := false) (o := 1) rfl rfl) (.cons (.destroy (v := false) (o := 1) rfl) .nil)))), rfl, rfl⟩
example : formatCall true (placeInt (formatInt lp64)) ptrRead (List.replicate 22 9) (.i32 (-42)) = .ok (ascii "-42") ∧
    formatCall false (placeInt (formatInt lp64)) ptrRead (List.replicate 22 9) (.i32 (-42)) = .ub := by decide +kernel

end Lexi
