import Verif.Model.AllocApi
import Verif.Proofs.Places
import Verif.Props.Alloc
import Verif.Props.Json
import Verif.Props.Room

/-!
# C113: the memory the public formatting functions ask for
-/

namespace Lexi
open Spec Soft Dtoa
open Alloc (Lib Out)

namespace Alloc

/-- A library with room for 15 bytes inside a string object, as all common ones have; `shrink_to_fit` leaves a string alone that is
there, and strings of 25 bytes are allowed. -/
structure Lib.Common (l : Lib) : Prop where
  ok : l.Ok
  sso : 15 ≤ l.sso
  maxSize : 25 ≤ l.maxSize
  shrinks : ∀ n, l.shrinks n l.sso = false

/-! ### Strings inside the object -/

theorem reserve_inside (l : Lib) (n : Nat) (d : Bytes) (h : n ≤ l.sso) (log : List Nat) :
    reserve l n ⟨d, l.sso⟩ log = .ok ⟨d, l.sso⟩ log := by
  rw [reserve, if_pos h]; rfl

theorem append_inside (l : Lib) (t d : Bytes) (h : d.length + t.length ≤ l.sso) (log : List Nat) :
    append l t ⟨d, l.sso⟩ log = .ok ⟨d ++ t, l.sso⟩ log := by
  rw [append, bind_def, A.bind]
  dsimp only
  rw [reserve_inside l _ _ h]
  rfl

theorem prepend_inside (l : Lib) (t d : Bytes) (h : d.length + t.length ≤ l.sso) (log : List Nat) :
    prepend l t ⟨d, l.sso⟩ log = .ok ⟨t ++ d, l.sso⟩ log := by
  rw [prepend, bind_def, A.bind]
  dsimp only
  rw [reserve_inside l _ _ h]
  rfl

theorem appendAll_inside (l : Lib) (ps : List Bytes) (d : Bytes) (h : d.length + ps.flatten.length ≤ l.sso) (log : List Nat) :
    appendAll l ps ⟨d, l.sso⟩ log = .ok ⟨d ++ ps.flatten, l.sso⟩ log := by
  induction ps generalizing d with
  | nil => rw [List.flatten_nil, List.append_nil]; rfl
  | cons p ps ih =>
    rw [List.flatten_cons, List.length_append] at h
    rw [appendAll, bind_def, A.bind, append_inside l p d (by omega)]
    dsimp only
    rw [ih (d ++ p) (by rw [List.length_append]; omega), List.flatten_cons, List.append_assoc]

theorem guess_eq {l : Lib} (hl : l.Ok) (src : Bytes) (h : src.length ≤ l.maxSize) : guess l src = 2 * src.length + 1 := by
  have hw := hl.wrap
  unfold guess
  rw [Nat.mod_eq_of_lt] <;> omega

theorem escape_inside {l : Lib} (hl : l.Common) (sgn : Bool) (src : Bytes) (h : 2 * src.length + 1 ≤ l.sso) (log : List Nat) :
    escape l sgn src log = .ok ⟨src.flatMap escB, l.sso⟩ log := by
  have hs := hl.ok.sso
  have he := escB_length src
  unfold escape
  rw [bind_def, A.bind, guess_eq hl.ok src (by omega), reserve_inside l _ _ h]
  dsimp only
  rw [bind_def, A.bind, escapeLoop_eq, appendAll_inside l _ [] (by rw [flatten_esc]; simp; simp at he; omega)]
  dsimp only
  rw [flatten_esc, shrinkToFit, hl.shrinks]
  rfl

theorem jsonify_inside {l : Lib} (hl : l.Common) (sgn : Bool) (src : Bytes) (h : 2 * src.length + 1 ≤ l.sso)
    (h' : (src.flatMap jsonB).length + 2 ≤ l.sso) (log : List Nat) :
    jsonifyStr l sgn src log = .ok ⟨34 :: (src.flatMap jsonB ++ [34]), l.sso⟩ log := by
  have hs := hl.ok.sso
  have e : jsonify l sgn src log = .ok ⟨src.flatMap jsonB, l.sso⟩ log := by
    unfold jsonify
    rw [bind_def, A.bind, guess_eq hl.ok src (by omega), reserve_inside l _ _ h]
    dsimp only
    rw [bind_def, A.bind, jsonifyLoop_pieces,
      appendAll_inside l _ [] (by rw [flatten_json, List.length_nil]; omega)]
    dsimp only
    rw [flatten_json, shrinkToFit, hl.shrinks]
    rfl
  unfold jsonifyStr
  rw [bind_def, A.bind, e]
  dsimp only
  rw [bind_def, A.bind, prepend_inside l _ _ (by simpa using (by omega : (src.flatMap jsonB).length + 1 ≤ l.sso))]
  dsimp only
  rw [append_inside l _ _ (by simp only [List.length_append, List.length_cons, List.length_nil]; omega)]
  rfl

/-! ### Constructed strings -/

/-- How `std::string(p, n)` ends. -/
def made (l : Lib) (t : Bytes) (log : List Nat) : Out Str :=
  if t.length ≤ l.sso then .ok ⟨t, l.sso⟩ log
  else if l.grants log (l.cap 0 t.length) then .ok ⟨t, l.cap 0 t.length⟩ (log ++ [l.cap 0 t.length])
  else .badAlloc (log ++ [l.cap 0 t.length])

theorem construct_made (l : Lib) (t : Bytes) (h : t.length ≤ l.maxSize) (log : List Nat) : construct l t log = made l t log := by
  unfold construct made
  split
  · rfl
  · rw [if_neg (by omega), bind_def, A.bind]
    unfold request
    by_cases hg : l.grants log (l.cap 0 t.length) = true
    · simp only [hg, if_true]; rfl
    · simp only [hg, if_false, Bool.false_eq_true]

theorem string_made (l : Lib) (m : Machine) (a : Arg) (t : Bytes) (ht : a.string m = .ok t) (h : t.length ≤ l.maxSize)
    (log : List Nat) : string l m a log = made l t log := by
  rw [string, ht, ofRes_ok, bind_def, A.bind]
  exact construct_made l t h log

theorem plain_arg (l : Lib) (m : Machine) (a : Arg) (ha : ¬ a.Textual) :
    escapeArg l m a = string l m a ∧ jsonifyArg l m a = string l m a := by
  cases a with
  | char c => exact absurd trivial ha
  | text a => exact absurd trivial ha
  | _ => exact ⟨rfl, rfl⟩

/-! ### After other requests -/

/-- The same library and machine after the requests `pre`. -/
def Lib.after (l : Lib) (pre : List Nat) : Lib := { l with grants := fun log n => l.grants (pre ++ log) n }

/-- The same end with `pre` before all requests. -/
def Out.after {α : Type} (pre : List Nat) : Out α → Out α
  | .ok a log => .ok a (pre ++ log)
  | .lengthError log => .lengthError (pre ++ log)
  | .badAlloc log => .badAlloc (pre ++ log)
  | .ub => .ub

theorem Lib.Ok.after {l : Lib} (h : l.Ok) (pre : List Nat) : (l.after pre).Ok := ⟨h.sso, h.cap, h.wrap⟩

/-- `x'` does after nothing what `x` does after `pre`. -/
def Shift {α : Type} (pre : List Nat) (x x' : A α) : Prop := ∀ log, x (pre ++ log) = (x' log).after pre

theorem Shift.pure {α : Type} (pre : List Nat) (a : α) : Shift pre (A.pure a) (A.pure a) := fun _ => rfl

theorem Shift.bind {α β : Type} {pre : List Nat} {x x' : A α} {f f' : α → A β} (h : Shift pre x x')
    (hf : ∀ a, Shift pre (f a) (f' a)) : Shift pre (A.bind x f) (A.bind x' f') := by
  intro log
  unfold A.bind
  rw [h log]
  cases x' log with
  | ok a log => exact hf a log
  | lengthError log => rfl
  | badAlloc log => rfl
  | ub => rfl

theorem Shift.request (l : Lib) (pre : List Nat) (n : Nat) : Shift pre (request l n) (request (l.after pre) n) := by
  intro log
  unfold Alloc.request
  by_cases h : l.grants (pre ++ log) n = true
  · have h' : (l.after pre).grants log n = true := h
    rw [if_pos h, if_pos h', Out.after, List.append_assoc]
  · have h' : ¬ (l.after pre).grants log n = true := h
    rw [if_neg h, if_neg h', Out.after, List.append_assoc]

theorem Shift.reserve (l : Lib) (pre : List Nat) (n : Nat) (s : Str) :
    Shift pre (reserve l n s) (reserve (l.after pre) n s) := by
  unfold Alloc.reserve
  split
  · exact .pure _ _
  · by_cases h : l.maxSize < n
    · rw [if_pos h, if_pos (show (l.after pre).maxSize < n from h)]
      exact fun _ => rfl
    · rw [if_neg h, if_neg (show ¬ (l.after pre).maxSize < n from h)]
      exact (Shift.request l pre _).bind fun _ => .pure _ _

theorem Shift.append (l : Lib) (pre : List Nat) (t : Bytes) (s : Str) : Shift pre (append l t s) (append (l.after pre) t s) :=
  (Shift.reserve l pre _ s).bind fun _ => .pure _ _

theorem Shift.prepend (l : Lib) (pre : List Nat) (t : Bytes) (s : Str) : Shift pre (prepend l t s) (prepend (l.after pre) t s) :=
  (Shift.reserve l pre _ s).bind fun _ => .pure _ _

theorem Shift.appendAll (l : Lib) (pre : List Nat) (ps : List Bytes) (s : Str) :
    Shift pre (appendAll l ps s) (appendAll (l.after pre) ps s) := by
  induction ps generalizing s with
  | nil => exact .pure _ _
  | cons p ps ih => exact (Shift.append l pre p s).bind fun s => ih s

theorem Shift.shrinkToFit (l : Lib) (pre : List Nat) (s : Str) : Shift pre (shrinkToFit l s) (shrinkToFit (l.after pre) s) := by
  intro log
  unfold Alloc.shrinkToFit
  by_cases a : l.shrinks s.data.length s.cap = true
  · by_cases b : l.grants (pre ++ log) s.data.length = true
    · simp [Lib.after, a, b, Out.after]
    · by_cases c : l.shrinkThrows = true
      · simp [Lib.after, a, b, c, Out.after]
      · simp [Lib.after, a, b, c, Out.after]
  · simp [Lib.after, a, Out.after]

theorem Shift.escape (l : Lib) (pre : List Nat) (sgn : Bool) (src : Bytes) :
    Shift pre (escape l sgn src) (escape (l.after pre) sgn src) := by
  unfold Alloc.escape
  refine (Shift.reserve l pre _ _).bind fun s => Shift.bind ?_ fun s => Shift.shrinkToFit l pre s
  rw [escapeLoop_eq, escapeLoop_eq]
  exact Shift.appendAll l pre _ s

theorem Shift.jsonifyStr (l : Lib) (pre : List Nat) (sgn : Bool) (src : Bytes) :
    Shift pre (jsonifyStr l sgn src) (jsonifyStr (l.after pre) sgn src) := by
  unfold Alloc.jsonifyStr
  refine Shift.bind ?_ fun s => (Shift.prepend l pre _ s).bind fun s => Shift.append l pre _ s
  unfold Alloc.jsonify
  refine (Shift.reserve l pre _ _).bind fun s => Shift.bind ?_ fun s => Shift.shrinkToFit l pre s
  rw [jsonifyLoop_pieces, jsonifyLoop_pieces]
  exact Shift.appendAll l pre _ s

end Alloc

/-! ### C113 -/

theorem EnumVal.bounds (e : EnumVal) : -2 ^ 63 ≤ e.toInt ∧ e.toInt < 2 ^ 64 := by
  cases e with
  | int v => exact v.toInt_bounds
  | bool b => cases b <;> decide
  | schar c => have h1 := c.le_toInt; have h2 := c.toInt_lt; simp only [EnumVal.toInt]; omega
  | uchar c => have h2 := c.toNat_lt; simp only [EnumVal.toInt]; omega
  | w16 c => have h2 := c.toNat_lt; simp only [EnumVal.toInt]; omega
  | w32 c => have h2 := c.toNat_lt; simp only [EnumVal.toInt]; omega
  | ws32 c => have h1 := c.le_toInt; have h2 := c.toInt_lt; simp only [EnumVal.toInt]; omega

/-- The text of an argument that is no text has at most 25 bytes. -/
theorem Arg.short (m : Machine) (hm : m.Ok) (hL : m.literals = .default) (a : Arg) (he : a.Exists m.platform) (ha : ¬ a.Textual) :
    ∃ t, a.string m = .ok t ∧ t.length ≤ 25 := by
  have flt : ∀ x : LVal, ∃ t, (formatLd m.literals m.env (m.junk FLOAT_SIZE) x >>= FloatObj.string) = .ok t ∧ t.length ≤ 25 := by
    intro x
    obtain ⟨t, h1, h2⟩ := formatLd_any m.env hm.env x
    rw [hL, h2 _ (hm.junk _)]
    exact ⟨t, readN_prefix t _, h1⟩
  cases a with
  | null => exact ⟨_, by rw [Arg.string, hL]; exact (C11_null _ (hm.junk _) []).1, by decide⟩
  | bool b => exact ⟨_, by rw [Arg.string, hL]; exact C10_bool_format _ (hm.junk _) b, by cases b <;> decide⟩
  | char c => exact absurd trivial ha
  | text c => exact absurd trivial ha
  | int v =>
    have := decimalText_length_le _ v.toInt_bounds.1 v.toInt_bounds.2
    exact ⟨_, stringInt_eq _ hm.platform _ (hm.junk _) v he, by omega⟩
  | enum e =>
    refine ⟨_, stringEnum_eq _ hm.platform _ (hm.junk _) e he, ?_⟩
    have := decimalText_length_le e.toInt e.bounds.1 e.bounds.2
    omega
  | fpos o =>
    have h1 := o.le_toInt; have h2 := o.toInt_lt
    have := decimalText_length_le o.toInt (by omega) (by omega)
    exact ⟨_, formatFpos_eq _ hm.platform _ (hm.junk _) o, by omega⟩
  | float u => exact flt _
  | double u => exact flt _
  | longDouble x => exact flt x

/-- C113, arguments that are no text: `string`, `escape` and `jsonify` ask for memory at most once, and only if the text does not
fit into the string object; they throw nothing but `std::bad_alloc`, and that only if the request is refused. -/
theorem C113_scalar (l : Lib) (hl : l.Common) (m : Machine) (hm : m.Ok) (hL : m.literals = .default) (a : Arg)
    (he : a.Exists m.platform) (ha : ¬ a.Textual) :
    ∃ t, a.string m = .ok t ∧ t.length ≤ 25 ∧
      ∀ f ∈ [Alloc.string l m, Alloc.escapeArg l m, Alloc.jsonifyArg l m], ∀ log, f a log =
        if t.length ≤ l.sso then .ok ⟨t, l.sso⟩ log
        else if l.grants log (l.cap 0 t.length) then .ok ⟨t, l.cap 0 t.length⟩ (log ++ [l.cap 0 t.length])
        else .badAlloc (log ++ [l.cap 0 t.length]) := by
  obtain ⟨t, h1, h2⟩ := a.short m hm hL he ha
  have h3 := hl.maxSize
  obtain ⟨e1, e2⟩ := Alloc.plain_arg l m a ha
  refine ⟨t, h1, h2, ?_⟩
  have key := Alloc.string_made l m a t h1 (by omega)
  intro f hf log
  simp only [List.mem_cons, List.not_mem_nil, or_false] at hf
  rcases hf with rfl | rfl | rfl
  · exact key log
  · rw [e1]; exact key log
  · rw [e2]; exact key log

/-- C113, characters: no memory is asked for. -/
theorem C113_char (l : Lib) (hl : l.Common) (m : Machine) (hm : m.Ok) (c : UInt8) :
    ∃ s e j, (Arg.char c).string m = .ok s ∧ (Arg.char c).escape m = .ok e ∧ (Arg.char c).jsonify m = .ok j ∧
      ∀ log, Alloc.string l m (.char c) log = .ok ⟨s, l.sso⟩ log ∧ Alloc.escapeArg l m (.char c) log = .ok ⟨e, l.sso⟩ log ∧
        Alloc.jsonifyArg l m (.char c) log = .ok ⟨j, l.sso⟩ log := by
  obtain ⟨h1, h2⟩ := C48_char_as_string m.sgn _ (hm.junk CHAR_SIZE) c
  have h0 : (Arg.char c).string m = .ok [c] := (C12_char _ (hm.junk _) c).1
  have hs := hl.sso
  have hx := hl.maxSize
  have h3 : ∀ log, Alloc.string l m (.char c) log = .ok ⟨[c], l.sso⟩ log := fun log => by
    rw [Alloc.string_made l m _ _ h0 (by simp; omega), Alloc.made, if_pos (by simp; omega)]
  have hj : ([c].flatMap jsonB).length ≤ 6 := by
    have := (flatMap_jsonB_length [c]).2
    simpa using this
  refine ⟨[c], _, 34 :: ([c].flatMap jsonB ++ [34]), h0, h1, h2.trans (jsonifyStr_eq _ _), fun log => ⟨h3 log, ?_, ?_⟩⟩
  · rw [Alloc.escapeArg, Alloc.bind_def, Alloc.A.bind, h3]
    dsimp only
    rw [Alloc.escape_inside hl m.sgn [c] (by simp; omega), escapeStr, escape_eq]
  · rw [Alloc.jsonifyArg, Alloc.bind_def, Alloc.A.bind, h3]
    dsimp only
    rw [Alloc.jsonify_inside hl m.sgn [c] (by simp; omega) (by omega)]

/-- An argument with a text of at most 15 bytes by its type: anything but 64-bit integers, floating-point numbers and strings. -/
def Arg.Narrow : Arg → Prop
  | .null | .bool _ | .char _ => True
  | .int v => intRoom v.ty ≤ 12
  | .enum (.int v) => intRoom v.ty ≤ 12
  | .enum _ => True
  | _ => False

theorem EnumVal.narrow_bounds {e : EnumVal} (h : (Arg.enum e).Narrow) : -2 ^ 31 ≤ e.toInt ∧ e.toInt < 2 ^ 32 := by
  cases e with
  | int v =>
    cases v <;> simp only [Arg.Narrow, IntVal.ty, intRoom] at h <;> simp only [EnumVal.toInt, IntVal.toInt] <;> rename_i x
    · have h1 := x.le_toInt; have h2 := x.toInt_lt; omega
    · have h2 := x.toNat_lt; omega
    · have h1 := x.le_toInt; have h2 := x.toInt_lt; omega
    · have h2 := x.toNat_lt; omega
    · have h1 := x.le_toInt; have h2 := x.toInt_lt; omega
    · have h2 := x.toNat_lt; omega
    · have h1 := x.le_toInt; have h2 := x.toInt_lt; omega
    · have h2 := x.toNat_lt; omega
    all_goals omega
  | bool b => cases b <;> decide
  | schar c => have h1 := c.le_toInt; have h2 := c.toInt_lt; simp only [EnumVal.toInt]; omega
  | uchar c => have h2 := c.toNat_lt; simp only [EnumVal.toInt]; omega
  | w16 c => have h2 := c.toNat_lt; simp only [EnumVal.toInt]; omega
  | w32 c => have h2 := c.toNat_lt; simp only [EnumVal.toInt]; omega
  | ws32 c => have h1 := c.le_toInt; have h2 := c.toInt_lt; simp only [EnumVal.toInt]; omega

/-- C113, types whose conversions never ask for memory and so cannot fail. -/
theorem C113_narrow (l : Lib) (hl : l.Common) (m : Machine) (hm : m.Ok) (hL : m.literals = .default) (a : Arg)
    (he : a.Exists m.platform) (ha : a.Narrow) :
    ∀ f ∈ [Alloc.string l m, Alloc.escapeArg l m, Alloc.jsonifyArg l m], ∀ log, ∃ s, f a log = .ok s log := by
  have hs := hl.sso
  have key : ∀ t, a.string m = .ok t → t.length ≤ 15 → ¬ a.Textual →
      ∀ f ∈ [Alloc.string l m, Alloc.escapeArg l m, Alloc.jsonifyArg l m], ∀ log, ∃ s, f a log = .ok s log := by
    intro t h1 h2 h3 f hf log
    obtain ⟨t', e, -, h⟩ := C113_scalar l hl m hm hL a he h3
    obtain rfl := Res.ok.inj (h1.symm.trans e)
    exact ⟨_, (h f hf log).trans (if_pos (by omega))⟩
  cases a with
  | null => exact key _ (by rw [Arg.string, hL]; exact (C11_null _ (hm.junk _) []).1) (by decide) (fun h => h)
  | bool b =>
    exact key _ (by rw [Arg.string, hL]; exact C10_bool_format _ (hm.junk _) b) (by cases b <;> decide) (fun h => h)
  | char c =>
    obtain ⟨s, e, j, -, -, -, h⟩ := C113_char l hl m hm c
    intro f hf log
    simp only [List.mem_cons, List.not_mem_nil, or_false] at hf
    rcases hf with rfl | rfl | rfl
    · exact ⟨_, (h log).1⟩
    · exact ⟨_, (h log).2.1⟩
    · exact ⟨_, (h log).2.2⟩
  | int v =>
    have h1 := text_room v
    have h2 : intRoom v.ty ≤ 12 := ha
    exact key _ (stringInt_eq _ hm.platform _ (hm.junk _) v he) (by omega) (fun h => h)
  | enum e =>
    have h1 := EnumVal.narrow_bounds ha
    have h2 := (text_le_digits e.toInt 10 (by omega) (by omega)).1
    exact key _ (stringEnum_eq _ hm.platform _ (hm.junk _) e he) (by omega) (fun h => h)
  | _ => exact absurd ha (fun h => h)

/-- A number has a text of at most `n` digits and sign iff it is in this range. -/
theorem text_fits (x : ℤ) (n : Nat) (hn : 1 < n) :
    (decimalText x).length ≤ n ↔ (x < 0 → -10 ^ (n - 1) < x) ∧ (0 ≤ x → x < 10 ^ n) := by
  have key : ∀ k d : Nat, 0 < d → ((decN k).length ≤ d ↔ (k : ℤ) < 10 ^ d) := by
    intro k d hd
    have e : (k : ℤ) < 10 ^ d ↔ k < 10 ^ d := by exact_mod_cast Iff.rfl
    rw [e]
    exact ⟨fun h => lt_of_lt_of_le (decN_lt_pow k) (Nat.pow_le_pow_right (by omega) h), fun h => decN_length_le d k h hd⟩
  by_cases hx : x < 0
  · rw [decimalText_neg x hx, List.length_cons]
    have h1 := key x.natAbs (n - 1) (by omega)
    have h2 : (x.natAbs : ℤ) = -x := by omega
    rw [h2] at h1
    constructor
    · intro h
      have := h1.mp (by omega)
      exact ⟨fun _ => by omega, fun h => by omega⟩
    · intro h
      have := h1.mpr (by have := h.1 hx; omega)
      omega
  · rw [decimalText_nonneg x (by omega)]
    have h1 := key x.natAbs n (by omega)
    have h2 : (x.natAbs : ℤ) = x := by omega
    rw [h2] at h1
    rw [h1]
    exact ⟨fun h => ⟨fun h => absurd h hx, fun _ => h⟩, fun h => h.2 (by omega)⟩

/-- C113, integers: the conversion asks for no memory iff the number is in the range given by the room inside a string object. -/
theorem C113_int (l : Lib) (hl : l.Common) (m : Machine) (hm : m.Ok) (hL : m.literals = .default) (v : IntVal)
    (hv : v.Fits m.platform) :
    ∀ f ∈ [Alloc.string l m, Alloc.escapeArg l m, Alloc.jsonifyArg l m], ∀ log,
      (∃ s, f (.int v) log = .ok s log) ↔ -10 ^ (l.sso - 1) < v.toInt ∧ v.toInt < 10 ^ l.sso := by
  intro f hf log
  have hs := hl.sso
  obtain ⟨t, e, -, h⟩ := C113_scalar l hl m hm hL (.int v) hv (fun h => h)
  obtain rfl := Res.ok.inj ((show Arg.string m (.int v) = _ from stringInt_eq _ hm.platform _ (hm.junk _) v hv).symm.trans e)
  have hp1 : (0 : ℤ) < 10 ^ (l.sso - 1) := by positivity
  have hp2 : (0 : ℤ) < 10 ^ l.sso := by positivity
  have hf := text_fits v.toInt l.sso (by omega)
  rw [h f ‹_› log]
  constructor
  · rintro ⟨s, e⟩
    split at e
    · rename_i h
      have := hf.mp h
      constructor <;> by_cases hx : v.toInt < 0 <;> omega
    · split at e
      · simp at e
      · cases e
  · intro hx
    rw [if_pos (hf.mpr ⟨fun _ => hx.1, fun _ => hx.2⟩)]
    exact ⟨_, rfl⟩

/-- C113, floating-point numbers: no library with less than 25 bytes inside a string object does without memory; 25 suffice for all
types but strings. -/
theorem C113_float (l : Lib) (hl : l.Common) (m : Machine) (hm : m.Ok) (hL : m.literals = .default) :
    (25 ≤ l.sso → ∀ a : Arg, a.Exists m.platform → ¬ a.Textual →
      ∀ f ∈ [Alloc.string l m, Alloc.escapeArg l m, Alloc.jsonifyArg l m], ∀ log, ∃ s, f a log = .ok s log) ∧
    (l.sso < 25 → ∃ (u : UInt64) (w : UInt32), ∀ a ∈ [Arg.double u, Arg.float w],
      ∀ f ∈ [Alloc.string l m, Alloc.escapeArg l m, Alloc.jsonifyArg l m], ∀ log,
        (∃ s, f a log = .ok s (log ++ [l.cap 0 25])) ∨ f a log = .badAlloc (log ++ [l.cap 0 25])) := by
  constructor
  · intro h a he ha f hf log
    obtain ⟨t, -, h2, h3⟩ := C113_scalar l hl m hm hL a he ha
    exact ⟨_, (h3 f hf log).trans (if_pos (by omega))⟩
  · intro hs
    have key : ∀ a : Arg, a.Exists m.platform → ¬ a.Textual → (∀ t, a.string m = .ok t → 25 ≤ t.length) →
        ∀ f ∈ [Alloc.string l m, Alloc.escapeArg l m, Alloc.jsonifyArg l m], ∀ log,
        (∃ s, f a log = .ok s (log ++ [l.cap 0 25])) ∨ f a log = .badAlloc (log ++ [l.cap 0 25]) := by
      intro a he ha h f hf log
      obtain ⟨t, h1, h2, h3⟩ := C113_scalar l hl m hm hL a he ha
      have h4 : t.length = 25 := le_antisymm h2 (h t h1)
      rw [h3 f hf log, h4, if_neg (by omega)]
      split
      · exact Or.inl ⟨_, rfl⟩
      · exact Or.inr rfl
    have size := C93_float_size m.env hm.env 25
    have long : ∀ x : LVal, ∀ junk : Bytes, junk.length = 25 → (¬ ∃ o, formatLd .default m.env junk x = .ok o) →
        ∀ t, (formatLd m.literals m.env (m.junk FLOAT_SIZE) x >>= FloatObj.string) = .ok t → 25 ≤ t.length := by
      intro x junk hj hx t ht
      obtain ⟨s, hs⟩ := C93_float_exact m.env hm.env .default default_nulFree x
      have h1 : ¬ s.length < junk.length := fun h => hx ⟨_, (hs junk).trans (if_pos h)⟩
      rw [hL, hs] at ht
      split at ht
      · have := Res.ok.inj ((readN_prefix s _).symm.trans ht)
        rw [← this]; omega
      · cases ht
    have h1 : ∃ u : UInt64, ∀ t, (Arg.double u).string m = .ok t → 25 ≤ t.length := by
      by_contra hc
      refine absurd (size.2.1.mp fun u junk hj => ?_) (by omega)
      by_contra hu
      exact hc ⟨u, long (.ofDouble u) junk hj hu⟩
    have h2 : ∃ u : UInt32, ∀ t, (Arg.float u).string m = .ok t → 25 ≤ t.length := by
      by_contra hc
      refine absurd (size.1.mp fun u junk hj => ?_) (by omega)
      by_contra hu
      exact hc ⟨u, long (.ofFloat u) junk hj hu⟩
    obtain ⟨u, hu⟩ := h1
    obtain ⟨w, hw⟩ := h2
    refine ⟨u, w, fun a ha => ?_⟩
    simp only [List.mem_cons, List.not_mem_nil, or_false] at ha
    rcases ha with rfl | rfl
    · exact key _ trivial (fun h => h) hu
    · exact key _ trivial (fun h => h) hw

/-- C113, strings: the copy that `string` returns asks at most once.  `escape` and `jsonify` of a `const char *` first make a
`std::string` of it, at the same price, and then do what they do for that string (C109) after these requests. -/
theorem C113_text (l : Lib) (hl : l.Ok) (m : Machine) (a : StrArg) (s : Bytes) (ha : a.toStd = .ok s)
    (h : s.length ≤ l.maxSize) (log : List Nat) :
    (∀ o, Alloc.string l m (.text a) log = o →
      o = if s.length ≤ l.sso then .ok ⟨s, l.sso⟩ log
        else if l.grants log (l.cap 0 s.length) then .ok ⟨s, l.cap 0 s.length⟩ (log ++ [l.cap 0 s.length])
        else .badAlloc (log ++ [l.cap 0 s.length])) ∧
    ∃ pre : List Nat, pre.length ≤ 1 ∧ (l.after (log ++ pre)).Ok ∧
      ((∃ r, l.grants log r = false ∧ Alloc.escapeArg l m (.text a) log = .badAlloc (log ++ [r]) ∧
          Alloc.jsonifyArg l m (.text a) log = .badAlloc (log ++ [r])) ∨
        (Alloc.escapeArg l m (.text a) log = (Alloc.escape (l.after (log ++ pre)) m.sgn s []).after (log ++ pre) ∧
          Alloc.jsonifyArg l m (.text a) log = (Alloc.jsonifyStr (l.after (log ++ pre)) m.sgn s []).after (log ++ pre))) := by
  have key := Alloc.string_made l m (.text a) s ha h
  refine ⟨fun o ho => ho.symm.trans (key log), ?_⟩
  have esc := fun pre => Alloc.Shift.escape l pre m.sgn s []
  have jso := fun pre => Alloc.Shift.jsonifyStr l pre m.sgn s []
  simp only [List.append_nil] at esc jso
  cases a with
  | stdString b =>
    obtain rfl := Res.ok.inj ha
    refine ⟨[], by simp, hl.after _, Or.inr ?_⟩
    rw [List.append_nil]
    exact ⟨esc log, jso log⟩
  | cstr b =>
    simp only [Alloc.escapeArg, Alloc.jsonifyArg, Alloc.bind_def, Alloc.A.bind, key log, Alloc.made]
    by_cases h1 : s.length ≤ l.sso
    · refine ⟨[], by simp, hl.after _, Or.inr ?_⟩
      simp only [h1, if_true, List.append_nil]
      exact ⟨esc log, jso log⟩
    · by_cases h2 : l.grants log (l.cap 0 s.length) = true
      · refine ⟨[l.cap 0 s.length], by simp, hl.after _, Or.inr ?_⟩
        simp only [h1, h2, if_true, if_false]
        exact ⟨esc _, jso _⟩
      · refine ⟨[], by simp, hl.after _, Or.inl ⟨l.cap 0 s.length, by simpa using h2, ?_⟩⟩
        simp only [h1, h2, if_false, Bool.false_eq_true]
        exact ⟨trivial, trivial⟩

/-! ### Instances -/

theorem Alloc.gnu_common : Alloc.gnu.Common :=
  ⟨Alloc.gnu_ok.1, by decide, by decide, fun n => by
    change (decide (n < 15) && decide (15 < n)) = false
    by_cases h : n < 15 <;> simp [h]; omega⟩

/-- A machine for examples. -/
def Alloc.box : Machine := ⟨lp64, true, .default, sampleEnv, fun n => List.replicate n 7⟩

theorem Alloc.box_ok : Alloc.box.Ok := ⟨by simp [Platform.Supported, lp64, Alloc.box], sampleEnv_ok, fun n => by simp [Alloc.box]⟩

/-- On libstdc++ 999999999999999 fits, 10^15 and -10^14 need an allocation of as many bytes as the text has. -/
example :
    Alloc.string Alloc.gnu Alloc.box (.int (.i64 999999999999999)) [] = .ok ⟨ascii "999999999999999", 15⟩ [] ∧
    Alloc.string Alloc.gnu Alloc.box (.int (.i64 1000000000000000)) [] = .ok ⟨ascii "1000000000000000", 16⟩ [16] ∧
    Alloc.string Alloc.gnu Alloc.box (.int (.i64 (-100000000000000))) [] = .ok ⟨ascii "-100000000000000", 16⟩ [16] ∧
    Alloc.jsonifyArg Alloc.gnu Alloc.box (.char 0) [] = .ok ⟨34 :: ascii "\\u0000" ++ [34], 15⟩ [] := by
  decide +kernel

/-- Escaping a literal of twenty letters asks for its copy, for the buffer, and to shrink the buffer; a `std::string` needs no copy. -/
example :
    Alloc.escapeArg Alloc.gnu Alloc.box (.text (.cstr (List.replicate 20 97 ++ [0]))) [] = .ok ⟨List.replicate 20 97, 20⟩ [20, 41, 20] ∧
    Alloc.escapeArg Alloc.gnu Alloc.box (.text (.stdString (List.replicate 20 97))) [] = .ok ⟨List.replicate 20 97, 20⟩ [41, 20] := by
  decide +kernel

end Lexi
