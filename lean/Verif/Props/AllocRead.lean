import Verif.Model.AllocRead
import Verif.Props.AllocApi
import Verif.Props.ReadTotal

/-!
# C115: the memory the extraction functions ask for
-/

namespace Lexi
open Spec Soft Dtoa
open Alloc (Lib Out Read)

/-- A number of any type is to be read. -/
def Target.Numeric : Target → Prop
  | .null | .bool | .char => False
  | _ => True

theorem Target.lexi_std (L : Literals) (F : FpFormat) (T : Target) (s : Bytes) :
    T.lexi L F (.stdString s) = T.extract L F s := rfl

/-- C115, reading from a `std::string`: a value is given without asking for memory, and it is the value the text has.  Numbers are
always given.  What is thrown is a `std::runtime_error` with the type's message, or `std::bad_alloc` for want of memory for that
message, and this exactly for texts that are not the word (`null`, `bool`) and the empty text (`char`). -/
theorem C115_string (l : Lib) (keeps : Nat → Option Nat) (F : FpFormat) (T : Target) (s : Bytes) (log : List Nat) :
    (∀ a, Alloc.read l keeps .default F T (.stdString s) log = .ok a log ↔ T.lexi .default F (.stdString s) = .ok a) ∧
    (T.Numeric → ∃ a, Alloc.read l keeps .default F T (.stdString s) log = .ok a log) ∧
    (((T = .null ∧ s ≠ ascii "null") ∨ (T = .bool ∧ s ≠ ascii "true" ∧ s ≠ ascii "false") ∨ (T = .char ∧ s = [])) ↔
      ∀ a log', Alloc.read l keeps .default F T (.stdString s) log ≠ .ok a log') ∧
    ((∀ a log', Alloc.read l keeps .default F T (.stdString s) log ≠ .ok a log') →
      (keeps (Alloc.message T).length = none →
        Alloc.read l keeps .default F T (.stdString s) log = .runtimeError (Alloc.message T) log) ∧
      ∀ n, keeps (Alloc.message T).length = some n →
        Alloc.read l keeps .default F T (.stdString s) log =
          if l.grants log n then .runtimeError (Alloc.message T) (log ++ [n]) else .badAlloc (log ++ [n])) := by
  obtain ⟨h1, h2⟩ := C78_total F T s
  have e : Alloc.read l keeps .default F T (.stdString s) log = Alloc.extract l keeps .default F T s log := rfl
  rw [e, Alloc.extract, Target.lexi_std] at *
  rcases h1 with ⟨a, h, -⟩ | h
  · have hno : ¬ ((T = .null ∧ s ≠ ascii "null") ∨ (T = .bool ∧ s ≠ ascii "true" ∧ s ≠ ascii "false") ∨ (T = .char ∧ s = [])) := by
      rw [← h2, h]; exact fun h => nomatch h
    rw [h]
    refine ⟨fun b => ?_, fun _ => ⟨a, rfl⟩, ⟨fun h => absurd h hno, fun h => absurd rfl (h a log)⟩, fun h => absurd rfl (h a log)⟩
    constructor
    · intro h; injection h with h; rw [h]
    · intro h; injection h with h; rw [h]
  · have hyes := h2.mp h
    have ne : ∀ a log', Alloc.throwError l keeps (Alloc.message T) log ≠ .ok a log' := by
      intro a log' h
      unfold Alloc.throwError at h
      split at h
      · cases h
      · split at h <;> cases h
    rw [h]
    refine ⟨fun b => ⟨fun h => absurd h (ne _ _), fun h => nomatch h⟩, fun hn => ?_, ⟨fun _ => ne, fun _ => hyes⟩,
      fun _ => ⟨fun hk => ?_, fun n hk => ?_⟩⟩
    · rcases hyes with h | h | h <;> rw [h.1] at hn <;> exact hn.elim
    · simp only [Alloc.throwError, hk]
    · simp only [Alloc.throwError, hk]

/-- C115, reading from a terminated array: the same as reading from the string of the bytes before the terminator, after at most one
request, which is made exactly if they do not fit inside a string object. -/
theorem C115_pointer (l : Lib) (keeps : Nat → Option Nat) (L : Literals) (F : FpFormat) (T : Target) (s r : Bytes) (h0 : 0 ∉ s)
    (h : s.length ≤ l.maxSize) (log : List Nat) :
    Alloc.read l keeps L F T (.cstr (s ++ 0 :: r)) log =
      if s.length ≤ l.sso then Alloc.read l keeps L F T (.stdString s) log
      else if l.grants log (l.cap 0 s.length) then Alloc.read l keeps L F T (.stdString s) (log ++ [l.cap 0 s.length])
      else .badAlloc (log ++ [l.cap 0 s.length]) := by
  have h1 : cstr (s ++ 0 :: r) = s := cstr_eq ⟨h0, Or.inr ⟨r, rfl⟩⟩
  have h2 : (StrArg.cstr (s ++ 0 :: r)).toStd = .ok s := by rw [StrArg.toStd, if_pos (by simp), h1]
  have e : Alloc.read l keeps L F T (.cstr (s ++ 0 :: r)) log =
      match Alloc.construct l s log with
      | .ok s log => Alloc.extract l keeps L F T s.data log
      | .lengthError log => Read.lengthError log
      | .badAlloc log => .badAlloc log
      | .ub => .ub := by
    conv_lhs => unfold Alloc.read
    simp only [h2, Alloc.ofRes_ok]
    rfl
  rw [e]
  rw [Alloc.construct_made l s h, Alloc.made]
  by_cases hs : s.length ≤ l.sso
  · rw [if_pos hs, if_pos hs]; rfl
  · rw [if_neg hs, if_neg hs]
    by_cases hg : l.grants log (l.cap 0 s.length) = true
    · rw [if_pos hg, if_pos hg]; rfl
    · rw [if_neg hg, if_neg hg]

/-- C115, a number that is read from a terminated array is given, or there is no memory for the copy. -/
theorem C115_number (l : Lib) (keeps : Nat → Option Nat) (F : FpFormat) (T : Target) (hT : T.Numeric) (s r : Bytes) (h0 : 0 ∉ s)
    (h : s.length ≤ l.maxSize) (log : List Nat) :
    (∃ a pre, Alloc.read l keeps .default F T (.cstr (s ++ 0 :: r)) log = .ok a (log ++ pre) ∧ pre.length ≤ 1) ∨
    (l.sso < s.length ∧ ∃ n, l.grants log n = false ∧
      Alloc.read l keeps .default F T (.cstr (s ++ 0 :: r)) log = .badAlloc (log ++ [n])) := by
  rw [C115_pointer l keeps .default F T s r h0 h log]
  by_cases hs : s.length ≤ l.sso
  · obtain ⟨a, ha⟩ := (C115_string l keeps F T s log).2.1 hT
    exact Or.inl ⟨a, [], by rw [if_pos hs, ha, List.append_nil], by simp⟩
  · rw [if_neg hs]
    by_cases hg : l.grants log (l.cap 0 s.length) = true
    · obtain ⟨a, ha⟩ := (C115_string l keeps F T s (log ++ [l.cap 0 s.length])).2.1 hT
      exact Or.inl ⟨a, [_], by rw [if_pos hg, ha], by simp⟩
    · exact Or.inr ⟨by omega, _, by simpa using hg, by rw [if_neg hg]⟩

/-- C115, a value whose text fits inside a string object goes to text and back without memory, through the string that
`lexi::string` gives and, but for the character `'\0'`, through the pointer its formatter gives. -/
theorem C115_round_trip (l : Lib) (hl : l.Common) (keeps : Nat → Option Nat) (m : Machine) (hm : m.Ok) (hL : m.literals = .default)
    (F : FpFormat) (a : Arg) (he : a.Exists m.platform) (hs : a.Survives F) (hn : a.Narrow ∨ 25 ≤ l.sso) (log : List Nat) :
    ∃ T t b, a.target = some T ∧ a.Same b ∧ Alloc.string l m a log = .ok t log ∧
      Alloc.read l keeps m.literals F T (.stdString t.data) log = .ok b log ∧
      (a ≠ .char 0 → ∃ mem, a.c_str m = .ok mem ∧ Alloc.read l keeps m.literals F T (.cstr mem) log = .ok b log) := by
  obtain ⟨T, t, b, h1, h2, h3, h4⟩ := C73_round_trip m hm hL F a he hs
  have hsso := hl.sso
  have hmax := hl.maxSize
  have hle := hl.ok.sso
  obtain ⟨t', hfit, hmade⟩ : ∃ t' : Alloc.Str, t'.data = t ∧ t.length ≤ l.sso ∧ Alloc.string l m a log = .ok t' log := by
    have hlen : t.length ≤ 25 := by
      by_cases ha : a.Textual
      · cases a with
        | char c =>
          obtain rfl := Res.ok.inj ((C12_char _ (hm.junk _) c).1.symm.trans h2)
          simp
        | text a => exact hs.elim
        | _ => exact ha.elim
      · obtain ⟨t', e, h⟩ := a.short m hm hL he ha
        rwa [Res.ok.inj (h2.symm.trans e)]
    have hm' := Alloc.string_made l m a t h2 (by omega) log
    have hfit : t.length ≤ l.sso := by
      rcases hn with hn | hn
      · by_contra hc
        obtain ⟨s, e⟩ := C113_narrow l hl m hm hL a he hn (Alloc.string l m) (by simp) log
        rw [hm', Alloc.made, if_neg hc] at e
        split at e
        · injection e with _ e; simp at e
        · cases e
      · omega
    exact ⟨⟨t, l.sso⟩, rfl, hfit, by rw [hm', Alloc.made, if_pos hfit]⟩
  have hread : Alloc.read l keeps m.literals F T (.stdString t) log = .ok b log := by
    rw [hL] at h3 ⊢
    exact ((C115_string l keeps F T t log).1 b).mpr h3
  refine ⟨T, t', b, h1, h4, hmade.2, hfit ▸ hread, fun h0 => ?_⟩
  obtain ⟨u, r, g1, g2, g3⟩ := arg_pointer hm hL a he (by rw [h1]; exact Option.some_ne_none _)
  obtain rfl := Res.ok.inj (h2.symm.trans g1)
  refine ⟨_, g2, ?_⟩
  rw [C115_pointer l keeps m.literals F T t r (fun h => h0 (g3.mp h)) (by omega), if_pos hmade.1, hread]

/-- C115, the messages; two of them have quotes around them. -/
theorem C115_messages :
    Alloc.message .null = ascii "\"String is not null.\"" ∧ Alloc.message .bool = ascii "String is not boolean." ∧
    Alloc.message .char = ascii "\"Cannot extract character from empty string.\"" := by decide

/-! ### Concrete cases -/

/-- Nothing is granted, and exceptions keep their messages in memory of their own. -/
def Alloc.exhausted : Lib := { Alloc.gnu with grants := fun _ _ => false }

example : Alloc.read Alloc.exhausted some .default .binary64 .bool (.stdString (ascii "true")) [] = .ok (.bool true) [] ∧
    Alloc.read Alloc.exhausted some .default .binary64 .bool (.stdString (ascii "yes")) [] = .badAlloc [22] ∧
    Alloc.read Alloc.exhausted some .default .binary64 .bool (.cstr (ascii "a longer text than fits" ++ [0])) [] = .badAlloc [23] ∧
    Alloc.read Alloc.exhausted (fun _ => none) .default .binary64 .char (.stdString []) [] =
      .runtimeError (ascii "\"Cannot extract character from empty string.\"") [] := by
  exact ⟨rfl, rfl, rfl, rfl⟩

/-- The number -5 goes to text and back without memory. -/
example : ∃ T t b, (Arg.int (.i32 (-5))).target = some T ∧ (Arg.int (.i32 (-5))).Same b ∧
    Alloc.string Alloc.exhausted Alloc.box (.int (.i32 (-5))) [] = .ok t [] ∧
    Alloc.read Alloc.exhausted some .default .binary64 T (.stdString t.data) [] = .ok b [] := by
  have hc : Alloc.exhausted.Common := ⟨⟨Alloc.gnu_ok.1.sso, Alloc.gnu_ok.1.cap, Alloc.gnu_ok.1.wrap⟩, Alloc.gnu_common.sso,
    Alloc.gnu_common.maxSize, Alloc.gnu_common.shrinks⟩
  obtain ⟨T, t, b, h1, h2, h3, h4, -⟩ := C115_round_trip Alloc.exhausted hc some Alloc.box Alloc.box_ok rfl .binary64
    (.int (.i32 (-5))) trivial trivial (Or.inl (show intRoom _ ≤ 12 by decide)) []
  exact ⟨T, t, b, h1, h2, h3, h4⟩

end Lexi
