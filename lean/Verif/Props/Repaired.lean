import Verif.Props.FullTable
import Verif.Props.ReadRepair
import Verif.Props.Config
import Verif.Props.Str

/-!
# C108: the repairs of C103 and C105 together, over all types and between platforms
-/

namespace Lexi
open Spec Soft Dtoa DiyFp

/-! ### Round trip -/

/-- The conversion of the repaired `operator float` undoes formatting, for every float. -/
theorem floatR_same {m : Machine} (hm : m.Ok) (hL : m.literals = .default) (u : UInt32) :
    ∃ t, (Arg.float u).string m = .ok t ∧ (Arg.float u).Same (.float (lexiFloatR t)) := by
  have hj := hm.junk FLOAT_SIZE
  have sp := special_printed m.env _ hj (.ofFloat u)
  rw [← hL] at sp
  rcases fclass_cases u with hf | hi | hn
  · by_cases hz : FZero u
    · have h0 : fMag u = 0 := by unfold fMag fSig; rw [if_pos hz.1, hz.2]; simp
      have h1 : LVal.ofFloat u = .fin (decide (fNeg u)) 0 := by rw [ofFloat_finite u hf, h0]
      have h2 : DZero (LVal.ofFloat u).toDouble := by rw [h1]; cases decide (fNeg u) <;> decide +kernel
      refine ⟨_, sp.2.2 h2, Or.inr (Or.inl ⟨hz, ?_⟩)⟩
      rw [lexiFloatR, read_zero]
      decide +kernel
    · obtain ⟨t, h1, h2⟩ := C105_float_round_trip m.env hm.env m.literals _ hj u hf hz
      exact ⟨t, h1, Or.inr (Or.inr h2.symm)⟩
  · have h1 := ofFloat_inf u hi
    obtain ⟨h2, h3⟩ := inf_class (decide (fNeg u))
    rw [← h1] at h2 h3
    refine ⟨_, sp.2.1 h2, Or.inr (Or.inr ?_)⟩
    rw [lexiFloatR, read_inf]
    have hb := finf_bits u hi
    by_cases hn : fNeg u
    · rw [if_pos hn] at hb
      rw [decide_eq_true (h3.mpr (decide_eq_true hn)), hb]; rfl
    · rw [if_neg hn] at hb
      rw [decide_eq_false (fun h' => hn (of_decide_eq_true (h3.mp h'))), hb]; rfl
  · have h1 := ofFloat_nan u hn
    refine ⟨_, sp.1 (by rw [h1]; decide +kernel), Or.inl ⟨hn, ?_⟩⟩
    rw [lexiFloatR, read_nan]; decide +kernel

/-- C108, round trip: once `operator float` and `operator double` convert directly, every value of every type other than strings
and `long double` comes back from its text, written on any platform and read on any other, with any literals that are kept. -/
theorem C108_round_trip (m : Machine) (hm : m.Ok) (hL : m.literals.Kept) (F : FpFormat) (a : Arg) (he : a.Exists m.platform)
    (T : Target) (hT : a.target = some T) (hld : T ≠ .longDouble) :
    ∃ t b, a.string m = .ok t ∧ T.extractR m.literals F t = .ok b ∧ a.Same b := by
  have old : a.Survives F → (∀ t, T.extractR m.literals F t = T.extract m.literals F t) →
      ∃ t b, a.string m = .ok t ∧ T.extractR m.literals F t = .ok b ∧ a.Same b := by
    intro hs e
    obtain ⟨T', t, b, h1, h2, h3, h4⟩ := C107_round_trip m hm hL F a he hs
    obtain rfl := Option.some.inj (hT.symm.trans h1)
    exact ⟨t, b, h2, (e t).trans h3, h4⟩
  cases a with
  | text _ => cases hT
  | longDouble _ => cases hT; exact absurd rfl hld
  | float u =>
    cases hT
    have hm' : ({ m with literals := .default } : Machine).Ok := ⟨hm.platform, hm.env, hm.junk⟩
    obtain ⟨t', h1, h2⟩ := floatR_same hm' rfl u
    obtain ⟨t, t2, k1, k2, k3⟩ := literal_text _ hL m.env hm.env _ (hm.junk FLOAT_SIZE) .binary32 (.ofFloat u)
    obtain rfl : t' = t2 := Res.ok.inj (h1.symm.trans k2)
    refine ⟨t, .float (lexiFloatR t), k1, rfl, ?_⟩
    rwa [lexiFloatR, k3]
  | double u =>
    cases hT
    obtain ⟨T', t, b, h1, h2, h3, h4⟩ := C107_round_trip m hm hL .binary64 (.double u) he (Or.inl rfl)
    cases h1
    exact ⟨t, b, h2, h3, h4⟩
  | null => cases hT; exact old trivial fun _ => rfl
  | bool _ => cases hT; exact old trivial fun _ => rfl
  | char _ => cases hT; exact old trivial fun _ => rfl
  | int _ => cases hT; exact old trivial fun _ => rfl
  | enum _ => cases hT; exact old trivial fun _ => rfl
  | fpos _ => cases hT; exact old trivial fun _ => rfl

/-- C108, `long double`: its text, read as `double` by the repaired conversion, is the double it was printed through. -/
theorem C108_long_double (m : Machine) (hm : m.Ok) (hL : m.literals.Kept) (F : FpFormat) (x : LVal) :
    ∃ t b, (Arg.longDouble x).string m = .ok t ∧ Target.double.extractR m.literals F t = .ok b ∧
      (Arg.double x.toDouble).Same b := by
  obtain ⟨t, b, h1, h2, h3⟩ := C108_round_trip m hm hL F (.double x.toDouble) trivial .double rfl (by decide)
  refine ⟨t, b, ?_, h2, h3⟩
  rw [← h1]
  change (formatLd m.literals m.env (m.junk FLOAT_SIZE) x >>= FloatObj.string) =
    (formatLd m.literals m.env (m.junk FLOAT_SIZE) (.ofDouble x.toDouble) >>= FloatObj.string)
  rcases class_cases x.toDouble with hf | hi | hn
  · unfold formatLd
    rw [toDouble_ofDouble _ fun h => hf h.1]
  · unfold formatLd
    rw [toDouble_ofDouble _ fun h => h.2 hi.2]
  · rw [formatLd_nan _ x hn, formatLd_nan _ _ (by rw [ofDouble_nan _ hn]; decide +kernel)]

/-! ### The same text everywhere -/

theorem float_text_portable (v v' : Variant) (dk dk' : ℤ → ℚ) (h : DkEval dk) (h' : DkEval dk') (L : Literals) (hL : L.Kept)
    (junk junk' : Bytes) (hj : junk.length = FLOAT_SIZE) (hj' : junk'.length = FLOAT_SIZE) (x : LVal) :
    (formatLd L ⟨v, dk, fullTable⟩ junk x >>= FloatObj.string) =
      (formatLd L ⟨v', dk', fullTable⟩ junk' x >>= FloatObj.string) := by
  have hF : FLOAT_SIZE = 30 := rfl
  have lit : ∀ l : Bytes, 0 ∉ l → l.length ≤ 29 → ∀ j : Bytes, j.length = FLOAT_SIZE →
      ((strncpyLit j l >>= fun b => .ok (⟨b, 0, l.length⟩ : FloatObj)) >>= FloatObj.string) = .ok l := by
    intro l h0 hl j hj
    rw [stringLit _ _ h0 (by omega), Res.ok_bind]
    exact readN_prefix _ _
  rcases class_cases x.toDouble with hf | hi | hn
  · have e : formatLd L ⟨v, dk, fullTable⟩ junk x = formatLd L ⟨v', dk', fullTable⟩ junk x := by
      unfold formatLd
      simp only [(isFinite_iff _).mpr hf, Bool.not_true, Bool.false_eq_true, if_false]
      rw [dtoa_congr (env := ⟨v, dk, fullTable⟩) (env' := ⟨v', dk', fullTable⟩) rfl h.ok h'.ok _ hf]
    rw [e]
    by_cases hz : DZero x.toDouble
    · rw [formatLd_zero _ x hz L junk hj, formatLd_zero _ x hz L junk' hj']
      exact (readN_prefix [48, 46, 48] _).trans (readN_prefix [48, 46, 48] _).symm
    · obtain ⟨D, k, -, h⟩ := formatLd_finite ⟨v', dk', fullTable⟩ (fullTable_ok v' h'.ok) _ hf hz
      rw [h x rfl L junk hj, h x rfl L junk' hj']
      exact (readN_prefix _ _).trans (readN_prefix _ _).symm
  · rw [formatLd_inf _ x hi, formatLd_inf _ x hi]
    by_cases hd : dNeg x.toDouble
    · simp only [hd, if_true]
      obtain ⟨h1, h2, -⟩ := hL.negInfinity
      rw [lit _ h1 h2 _ hj, lit _ h1 h2 _ hj']
    · simp only [hd, if_false]
      obtain ⟨h1, h2, -⟩ := hL.infinity
      rw [lit _ h1 h2 _ hj, lit _ h1 h2 _ hj']
  · rw [formatLd_nan _ x hn, formatLd_nan _ x hn]
    obtain ⟨h1, h2, -⟩ := hL.nan
    rw [lit _ h1 h2 _ hj, lit _ h1 h2 _ hj']

theorem signedness (sgn sgn' : Bool) (s : Bytes) :
    escapeStr sgn s = escapeStr sgn' s ∧ jsonifyStr sgn s = jsonifyStr sgn' s := by
  obtain ⟨h1, h2, -⟩ := C19_char_signedness s
  cases sgn <;> cases sgn' <;> simp [h1, h2]

/-- C108, texts: with the longer table and the same literals, any two platforms, in whatever state their memory is, produce the
same text, the same escaped text and the same JSON for every argument that exists on both, and all three are defined. -/
theorem C108_portable (m m' : Machine) (hm : m.Ok) (hm' : m'.Ok) (ht : m.env.oob = fullTable) (ht' : m'.env.oob = fullTable)
    (hd : DkEval m.env.dk) (hd' : DkEval m'.env.dk) (hl : m.literals = m'.literals) (hL : m.literals.Kept) (a : Arg)
    (he : a.Exists m.platform) (he' : a.Exists m'.platform) :
    ∃ s e j, a.string m = .ok s ∧ a.escape m = .ok e ∧ a.jsonify m = .ok j ∧
      a.string m' = .ok s ∧ a.escape m' = .ok e ∧ a.jsonify m' = .ok j := by
  have fl : ∀ x : LVal, ∃ s, (formatLd m.literals m.env (m.junk FLOAT_SIZE) x >>= FloatObj.string) = .ok s ∧
      (formatLd m'.literals m'.env (m'.junk FLOAT_SIZE) x >>= FloatObj.string) = .ok s := by
    intro x
    obtain ⟨s, -, h, -⟩ := literal_text _ hL m.env hm.env _ (hm.junk FLOAT_SIZE) .x87 x
    refine ⟨s, h, ?_⟩
    rw [← h, ← hl]
    have := float_text_portable m.env.v m'.env.v _ _ hd hd' _ hL _ _ (hm.junk _) (hm'.junk _) x
    have e : m.env = ⟨m.env.v, m.env.dk, fullTable⟩ := by rw [← ht]
    have e' : m'.env = ⟨m'.env.v, m'.env.dk, fullTable⟩ := by rw [← ht']
    rw [← e, ← e'] at this
    exact this.symm
  cases a with
  | null =>
    have h := (C51_null_literal m.literals hL.null.1).2.mpr hL.null.2
    have h1 := h _ (hm.junk NULL_SIZE)
    have h2 := h _ (hm'.junk NULL_SIZE)
    rw [hl] at h2
    exact ⟨_, _, _, h1, h1, h1, h2.trans (by rw [hl]), h2.trans (by rw [hl]), h2.trans (by rw [hl])⟩
  | bool b =>
    obtain ⟨-, ht, hf⟩ := C51_bool_literals m.literals hL.true_.1 hL.false_.1
    have h : ∃ s, ∀ junk, junk.length = BOOL_SIZE → stringBool m.literals junk b = .ok s := by
      cases b
      · exact ⟨_, hf.mpr hL.false_.2⟩
      · exact ⟨_, ht.mpr hL.true_.2⟩
    obtain ⟨s, h⟩ := h
    have h1 := h _ (hm.junk BOOL_SIZE)
    have h2 := h _ (hm'.junk BOOL_SIZE)
    rw [hl] at h2
    exact ⟨_, _, _, h1, h1, h1, h2, h2, h2⟩
  | char c =>
    have h1 := (C12_char _ (hm.junk CHAR_SIZE) c).1
    have h2 := (C12_char _ (hm'.junk CHAR_SIZE) c).1
    obtain ⟨e1, j1⟩ := C48_char_as_string m.sgn _ (hm.junk CHAR_SIZE) c
    obtain ⟨e2, j2⟩ := C48_char_as_string m'.sgn _ (hm'.junk CHAR_SIZE) c
    rw [jsonifyStr_eq] at j1 j2
    exact ⟨_, _, _, h1, e1, j1, h2, e2.trans (by rw [(signedness m'.sgn m.sgn _).1]), j2⟩
  | int v =>
    have h := stringInt_eq _ hm.platform _ (hm.junk INTEGER_SIZE) v he
    have h' := stringInt_eq _ hm'.platform _ (hm'.junk INTEGER_SIZE) v he'
    exact ⟨_, _, _, h, h, h, h', h', h'⟩
  | enum v =>
    have h := stringEnum_eq _ hm.platform _ (hm.junk INTEGER_SIZE) v he
    have h' := stringEnum_eq _ hm'.platform _ (hm'.junk INTEGER_SIZE) v he'
    exact ⟨_, _, _, h, h, h, h', h', h'⟩
  | fpos o =>
    have h := (C47_fpos_round_trip _ hm.platform _ (hm.junk INTEGER_SIZE) o).1
    have h' := (C47_fpos_round_trip _ hm'.platform _ (hm'.junk INTEGER_SIZE) o).1
    exact ⟨_, _, _, h, h, h, h', h', h'⟩
  | float u => obtain ⟨s, h, h'⟩ := fl (.ofFloat u); exact ⟨_, _, _, h, h, h, h', h', h'⟩
  | double u => obtain ⟨s, h, h'⟩ := fl (.ofDouble u); exact ⟨_, _, _, h, h, h, h', h', h'⟩
  | longDouble x => obtain ⟨s, h, h'⟩ := fl x; exact ⟨_, _, _, h, h, h, h', h', h'⟩
  | text a =>
    have h := toStd_content he
    refine ⟨a.content, escapeStr m.sgn a.content, 34 :: (a.content.flatMap jsonB ++ [34]), h, ?_, ?_, h, ?_, ?_⟩
    · rw [Arg.escape, h]; rfl
    · rw [Arg.jsonify, h, Res.ok_bind, jsonifyStr_eq]
    · rw [Arg.escape, h, (signedness m.sgn m'.sgn _).1]; rfl
    · rw [Arg.jsonify, h, Res.ok_bind, jsonifyStr_eq]

/-! ### Instances -/

/-- Two platforms that differ in every respect the theorem leaves open: `long`, the sign of `char`, the multiplication, the
evaluation of `dk` and the memory. -/
def oneMachine : Machine :=
  ⟨⟨false, false, true, true, true⟩, true, .default, ⟨⟨.gnu128, .gnu, .generic⟩, dkDouble, fullTable⟩, fun n => List.replicate n 7⟩

def otherMachine : Machine :=
  ⟨⟨true, true, false, false, false⟩, false, .default, ⟨⟨.msvc, .msvc, .msvc⟩, dkFma, fullTable⟩,
    fun n => List.replicate n 255⟩

theorem oneMachine_ok : oneMachine.Ok :=
  ⟨by simp [Platform.Supported, oneMachine], fullTable_ok _ dkDouble_ok, fun n => by simp [oneMachine]⟩

theorem otherMachine_ok : otherMachine.Ok :=
  ⟨by simp [Platform.Supported, otherMachine], fullTable_ok _ dkFma_eval.ok, fun n => by simp [otherMachine]⟩

/-- The double the x87 format does not give back (`C23_refuted_x87`) exists on both and meets the hypotheses. -/
example : (Arg.double x87Witness).Exists oneMachine.platform ∧ (Arg.double x87Witness).Exists otherMachine.platform ∧
    oneMachine.literals = otherMachine.literals ∧ DkEval oneMachine.env.dk ∧ DkEval otherMachine.env.dk :=
  ⟨trivial, trivial, rfl, dkDouble_eval, dkFma_eval⟩

/-- The three floating types keep apart: the repaired conversions change nothing but these two. -/
example (L : Literals) (F : FpFormat) (T : Target) (s : Bytes) (h : T ≠ .float ∧ T ≠ .double) :
    T.extractR L F s = T.extract L F s := by
  cases T <;> first | exact absurd rfl h.1 | exact absurd rfl h.2 | rfl

end Lexi
