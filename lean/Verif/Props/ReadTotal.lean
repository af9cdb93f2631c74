import Verif.Props.RoundTrip

/-!
# Reading never goes wrong: C78
-/

namespace Lexi
open Spec Soft Dtoa DiyFp

/-! ## C78 -/

theorem convertEnum_ty (d : UInt64) (t : EnumTy) : (convertEnum d t).ty = t := by
  cases t with
  | int t => rw [convertEnum_int]; exact congrArg EnumTy.int (convertInt_ty d t)
  | _ => rfl

/-- C78.  Reading any type from any `std::string` gives a value of that type or throws; it is never undefined.  It throws
exactly for text that is not the word (`null`, `bool`) and for the empty text (`char`). -/
theorem C78_total (F : FpFormat) (T : Target) (s : Bytes) :
    ((∃ a, T.lexi .default F (.stdString s) = .ok a ∧ a.target = some T) ∨
      T.lexi .default F (.stdString s) = .throws) ∧
    (T.lexi .default F (.stdString s) = .throws ↔
      T = .null ∧ s ≠ ascii "null" ∨ T = .bool ∧ s ≠ ascii "true" ∧ s ≠ ascii "false" ∨ T = .char ∧ s = []) := by
  have ok : ∀ a : Arg, T.lexi .default F (.stdString s) = .ok a → a.target = some T → T ≠ .null → T ≠ .bool → T ≠ .char →
      ((∃ a, T.lexi .default F (.stdString s) = .ok a ∧ a.target = some T) ∨
        T.lexi .default F (.stdString s) = .throws) ∧
      (T.lexi .default F (.stdString s) = .throws ↔
        T = .null ∧ s ≠ ascii "null" ∨ T = .bool ∧ s ≠ ascii "true" ∧ s ≠ ascii "false" ∨ T = .char ∧ s = []) := by
    intro a h1 h2 h3 h4 h5
    refine ⟨Or.inl ⟨a, h1, h2⟩, fun h => ?_, fun h => ?_⟩
    · rw [h1] at h; cases h
    · rcases h with h | h | h
      · exact absurd h.1 h3
      · exact absurd h.1 h4
      · exact absurd h.1 h5
  cases T with
  | null =>
    obtain ⟨-, h1, h2⟩ := C11_null (List.replicate 5 0) rfl s
    have e : Target.null.lexi .default F (.stdString s) = (lexiNull .default s >>= fun _ => Res.ok Arg.null) := rfl
    rw [e]
    by_cases h : s = ascii "null"
    · rw [h1.mpr h]
      exact ⟨Or.inl ⟨_, rfl, rfl⟩, by simp [h, Bind.bind, Res.bind]⟩
    · rw [h2.mpr h]
      exact ⟨Or.inr rfl, by simp [h, Bind.bind, Res.bind]⟩
  | bool =>
    obtain ⟨h1, h2, h3, -⟩ := C10_bool_extract s
    have e : Target.bool.lexi .default F (.stdString s) = (lexiBool .default s >>= fun b => Res.ok (Arg.bool b)) := rfl
    rw [e]
    by_cases ht : s = ascii "true"
    · rw [h1.mpr ht]
      exact ⟨Or.inl ⟨_, rfl, rfl⟩, by simp [ht, Bind.bind, Res.bind]⟩
    · by_cases hf : s = ascii "false"
      · rw [h2.mpr hf]
        exact ⟨Or.inl ⟨_, rfl, rfl⟩, by simp [hf, Bind.bind, Res.bind]⟩
      · rw [h3.mpr ⟨ht, hf⟩]
        exact ⟨Or.inr rfl, by simp [ht, hf, Bind.bind, Res.bind]⟩
  | char =>
    cases s with
    | nil => exact ⟨Or.inr rfl, fun _ => by simp, fun _ => rfl⟩
    | cons c r =>
      have e : Target.char.lexi .default F (.stdString (c :: r)) = .ok (.char c) := rfl
      rw [e]
      exact ⟨Or.inl ⟨.char c, rfl, rfl⟩, by simp⟩
  | int t => exact ok (.int (convertInt (extractInt s) t)) rfl (by rw [Arg.target, convertInt_ty]) (by simp) (by simp) (by simp)
  | enum t => exact ok (.enum (convertEnum (extractInt s) t)) rfl (by rw [Arg.target, convertEnum_ty]) (by simp) (by simp) (by simp)
  | fpos => exact ok (.fpos _) rfl rfl (by simp) (by simp) (by simp)
  | float => exact ok (.float _) rfl rfl (by simp) (by simp) (by simp)
  | double => exact ok (.double _) rfl rfl (by simp) (by simp) (by simp)
  | longDouble => exact ok (.longDouble _) rfl rfl (by simp) (by simp) (by simp)

/-- C78.  Printing what was read and reading it again changes nothing: a value that any text was read as, of a type the
platform has, comes back from its own text. -/
theorem C78_normal_form (m : Machine) (hm : m.Ok) (hL : m.literals = .default) (F : FpFormat) (T : Target) (s : Bytes)
    (a : Arg) (h : T.lexi m.literals F (.stdString s) = .ok a) (he : a.Exists m.platform) (hs : a.Survives F) :
    ∃ t b, a.string m = .ok t ∧ T.lexi m.literals F (.stdString t) = .ok b ∧ a.Same b := by
  obtain ⟨T', t, b, h1, h2, h3, h4⟩ := C73_round_trip m hm hL F a he hs
  rw [hL] at h
  obtain ⟨⟨a', h5, h6⟩ | h5, -⟩ := C78_total F T s
  · rw [h] at h5
    injection h5 with h5
    rw [← h5, h1] at h6
    injection h6 with h6
    exact ⟨t, b, h2, h6 ▸ h3, h4⟩
  · rw [h] at h5; cases h5

/-- A number of any type. -/
def Arg.Numeric : Arg → Prop
  | .int _ | .enum _ | .fpos _ | .float _ | .double _ | .longDouble _ => True
  | _ => False

/-- The text of a number starts like a number, or with the `N` or `I` of the special values. -/
theorem numeric_head {m : Machine} (hm : m.Ok) (hL : m.literals = .default) (a : Arg) (he : a.Exists m.platform)
    (hn : a.Numeric) : ∃ c r, a.string m = .ok (c :: r) ∧ (IsDigit c ∨ c = 45 ∨ c = 78 ∨ c = 73) := by
  have num : ∀ n : JNumber, n.WF → ∃ c r, n.text = c :: r ∧ (IsDigit c ∨ c = 45 ∨ c = 78 ∨ c = 73) := by
    intro n hw
    rw [text_eq]
    cases n.neg with
    | true => exact ⟨45, _, rfl, Or.inr (Or.inl rfl)⟩
    | false =>
      cases hi : n.int with
      | nil => exact absurd hi hw.int_ne
      | cons c r => exact ⟨c, _, rfl, Or.inl (hw.int_digits c (by rw [hi]; simp))⟩
  have dec : ∀ n : ℤ, a.string m = .ok (decimalText n) →
      ∃ c r, a.string m = .ok (c :: r) ∧ (IsDigit c ∨ c = 45 ∨ c = 78 ∨ c = 73) := by
    intro n h
    obtain ⟨k, hwf, ht, -⟩ := canonical_json (decimalText_canonical n)
    obtain ⟨c, r, h1, h2⟩ := num k hwf
    exact ⟨c, r, by rw [h, ← ht, h1], h2⟩
  have ld : ∀ x : LVal, a.string m = (formatLd m.literals m.env (m.junk FLOAT_SIZE) x >>= FloatObj.string) →
      ∃ c r, a.string m = .ok (c :: r) ∧ (IsDigit c ∨ c = 45 ∨ c = 78 ∨ c = 73) := by
    intro x h
    rw [h]
    have sp := special_printed m.env _ (hm.junk FLOAT_SIZE) x
    rw [← hL] at sp
    rcases class_cases x.toDouble with hf | hi | hn
    · obtain ⟨n, hwf, h2, -⟩ := double_text (x := x) hm rfl hf
      obtain ⟨c, r, h3, h4⟩ := num n hwf
      exact ⟨c, r, by rw [h2, h3], h4⟩
    · have h2 := sp.2.1 hi
      by_cases hd : dNeg x.toDouble
      · rw [if_pos hd] at h2
        exact ⟨_, _, h2, Or.inr (Or.inl rfl)⟩
      · rw [if_neg hd] at h2
        exact ⟨_, _, h2, Or.inr (Or.inr (Or.inr rfl))⟩
    · exact ⟨_, _, sp.1 hn, Or.inr (Or.inr (Or.inl rfl))⟩
  cases a with
  | int v => exact dec _ (stringInt_eq _ hm.platform _ (hm.junk _) v he)
  | enum e => exact dec _ (stringEnum_eq _ hm.platform _ (hm.junk _) e he)
  | fpos o => exact dec _ (C47_fpos_round_trip _ hm.platform _ (hm.junk INTEGER_SIZE) o).1
  | float u => exact ld (.ofFloat u) rfl
  | double u => exact ld (.ofDouble u) rfl
  | longDouble x => exact ld x rfl
  | _ => exact hn.elim

/-- C78.  A number's text is never taken for `null` or a boolean; read as `char` it gives its first character. -/
theorem C78_number_misread (m : Machine) (hm : m.Ok) (hL : m.literals = .default) (F : FpFormat) (a : Arg)
    (he : a.Exists m.platform) (hn : a.Numeric) :
    ∃ t, a.string m = .ok t ∧ Target.null.lexi m.literals F (.stdString t) = .throws ∧
      Target.bool.lexi m.literals F (.stdString t) = .throws ∧
      ∃ c, t.head? = some c ∧ Target.char.lexi m.literals F (.stdString t) = .ok (.char c) := by
  obtain ⟨c, r, h1, h2⟩ := numeric_head hm hL a he hn
  have hne : ∀ x : UInt8, x = 110 ∨ x = 116 ∨ x = 102 → c ≠ x := by
    rintro x hx rfl
    rcases hx with rfl | rfl | rfl <;> revert h2 <;> unfold IsDigit <;> decide
  rw [hL]
  refine ⟨c :: r, h1, ?_, ?_, c, rfl, rfl⟩
  · refine (C78_total F .null _).2.mpr (Or.inl ⟨rfl, fun h => ?_⟩)
    exact hne 110 (by simp) (List.cons.inj h).1
  · refine (C78_total F .bool _).2.mpr (Or.inr (Or.inl ⟨rfl, fun h => ?_, fun h => ?_⟩))
    · exact hne 116 (by simp) (List.cons.inj h).1
    · exact hne 102 (by simp) (List.cons.inj h).1

/-- C78.  The words read as any number type give zero, silently; read as one another they throw. -/
theorem C78_word_misread (F : FpFormat) (w : Bytes) (hw : w = ascii "null" ∨ w = ascii "true" ∨ w = ascii "false") :
    (∀ t v, Target.lexi .default F (.int t) (.stdString w) = .ok (.int v) → v.toInt = 0) ∧
    (∀ t e, Target.lexi .default F (.enum t) (.stdString w) = .ok (.enum e) → e.toInt = 0) ∧
    Target.fpos.lexi .default F (.stdString w) = .ok (.fpos 0) ∧
    Target.float.lexi .default F (.stdString w) = .ok (.float 0) ∧
    Target.double.lexi .default F (.stdString w) = .ok (.double 0) ∧
    Target.longDouble.lexi .default F (.stdString w) = .ok (.longDouble (.fin false 0)) ∧
    (Target.null.lexi .default F (.stdString w) = .throws ↔ w ≠ ascii "null") ∧
    (Target.bool.lexi .default F (.stdString w) = .throws ↔ w = ascii "null") := by
  have hi : extractInt w = 0 := by rcases hw with rfl | rfl | rfl <;> decide
  have hx : strtold F w = .fin false 0 := by rcases hw with rfl | rfl | rfl <;> rfl
  refine ⟨?_, ?_, ?_, ?_, ?_, ?_, ?_, ?_⟩
  · intro t v h
    have h' : Res.ok (Arg.int (convertInt (extractInt w) t)) = .ok (.int v) := h
    rw [hi] at h'
    injection h' with h'
    injection h' with h'
    rw [← h']; cases t <;> decide
  · intro t v h
    have h' : Res.ok (Arg.enum (convertEnum (extractInt w) t)) = .ok (.enum v) := h
    rw [hi] at h'
    injection h' with h'
    injection h' with h'
    rw [← h']
    cases t with
    | int t => cases t <;> decide
    | _ => decide
  · change Res.ok (Arg.fpos (extractInt w).toInt64) = _
    rw [hi]; rfl
  · change Res.ok (Arg.float (lexiFloat F w)) = _
    rw [lexiFloat, extractLongDouble, hx]
    exact congrArg (fun x => Res.ok (Arg.float x)) (by decide +kernel)
  · change Res.ok (Arg.double (lexiDouble F w)) = _
    rw [lexiDouble, extractLongDouble, hx]
    exact congrArg (fun x => Res.ok (Arg.double x)) (by decide +kernel)
  · change Res.ok (Arg.longDouble (extractLongDouble F w)) = _
    rw [extractLongDouble, hx]
  · rw [(C78_total F .null w).2]; simp
  · rw [(C78_total F .bool w).2]
    rcases hw with rfl | rfl | rfl <;> decide

/-! Non-vacuity. -/
example : Target.lexi .default .x87 .char (.stdString []) = .throws ∧
    Target.lexi .default .x87 (.int .u8) (.stdString []) = .ok (.int (.u8 0)) := ⟨rfl, rfl⟩
example : Target.lexi sampleMachine.literals .x87 .double (.stdString (ascii " 0.10000000000000000001xyz")) =
    .ok (.double 0x3FB999999999999A) ∧ (Arg.double 0x3FB999999999999A).Survives .x87 ∧
    (Arg.double 0x3FB999999999999A).Exists sampleMachine.platform := by
  refine ⟨?_, Or.inr (Or.inr (Or.inl (by decide))), trivial⟩
  exact congrArg (fun x => Res.ok (Arg.double x))
    (show lexiDouble .x87 (ascii " 0.10000000000000000001xyz") = 0x3FB999999999999A by decide +kernel)
example : (Arg.int (.i16 (-12))).Numeric ∧ (Arg.double 0x7FF0000000000000).Numeric := ⟨trivial, trivial⟩

end Lexi
