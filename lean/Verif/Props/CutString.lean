import Mathlib.Algebra.Group.Nat.Even
import Mathlib.Data.List.Induction
import Mathlib.Algebra.Ring.Parity
import Verif.Props.Sql
import Verif.Props.Str
import Verif.Spec.CutString

/-!
# C124: escaped strings and JSON texts cut short

What is left when a buffer, a file or a message ends in the middle of a text (C101 and C106 are about numbers).
-/

namespace Lexi
open Spec

theorem prefix_append_cases {u a b : Bytes} (h : u <+: a ++ b) : u <+: a ∨ ∃ v, u = a ++ v ∧ v <+: b := by
  rcases List.prefix_or_prefix_of_prefix h (List.prefix_append a b) with h' | ⟨v, rfl⟩
  · exact .inl h'
  · exact .inr ⟨v, rfl, (List.prefix_append_right_inj a).mp h⟩

/-- A prefix of a text made byte by byte ends between two bytes or within the text of one. -/
theorem prefix_flatMap (f : UInt8 → Bytes) {u s : Bytes} (h : u <+: s.flatMap f) :
    (∃ p, p <+: s ∧ u = p.flatMap f) ∨
    ∃ p c w, p ++ [c] <+: s ∧ w <+: f c ∧ w ≠ [] ∧ w ≠ f c ∧ u = p.flatMap f ++ w := by
  induction s generalizing u with
  | nil => exact .inl ⟨[], List.prefix_rfl, by simpa using h⟩
  | cons c s ih =>
    rw [List.flatMap_cons] at h
    rcases prefix_append_cases h with hu | ⟨v, rfl, hv⟩
    · by_cases h0 : u = []
      · exact .inl ⟨[], List.nil_prefix, by rw [h0]; rfl⟩
      · by_cases h1 : u = f c
        · exact .inl ⟨[c], List.cons_prefix_cons.mpr ⟨rfl, List.nil_prefix⟩, by simp [h1]⟩
        · exact .inr ⟨[], c, u, List.cons_prefix_cons.mpr ⟨rfl, List.nil_prefix⟩, hu, h0, h1, rfl⟩
    · rcases ih hv with ⟨p, hp, rfl⟩ | ⟨p, d, w, hp, h1, h2, h3, rfl⟩
      · exact .inl ⟨c :: p, List.cons_prefix_cons.mpr ⟨rfl, hp⟩, rfl⟩
      · exact .inr ⟨c :: p, d, w, List.cons_prefix_cons.mpr ⟨rfl, hp⟩, h1, h2, h3, by simp⟩

/-! ## `escape` -/

/-- C124.  A text cut short is the escaped text of a prefix of the string, or that and the backslash of the next byte. -/
theorem C124_escape_cut (sgn : Bool) (s u : Bytes) :
    u <+: escapeStr sgn s ↔ (∃ p, p <+: s ∧ u = escapeStr sgn p) ∨
      ∃ p c, p ++ [c] <+: s ∧ NeedsEscape c ∧ u = escapeStr sgn p ++ [92] := by
  simp only [escapeStr, escape_eq]
  constructor
  · intro h
    rcases prefix_flatMap escB h with h | ⟨p, c, w, hp, hw, h0, h1, rfl⟩
    · exact .inl h
    · refine .inr ⟨p, c, hp, ?_⟩
      obtain ⟨v, hv⟩ := hw
      rcases escB_cases c with ⟨hn, e⟩ | ⟨hn, e⟩
      · refine ⟨hn, ?_⟩
        rw [e] at hv h1
        match w, v, h0, h1, hv with
        | [a], _, _, _, hv => rw [(List.cons.inj hv).1]
        | a :: b :: r, v, _, h1, hv =>
          have hl := congrArg List.length hv
          simp only [List.length_append, List.length_cons, List.length_nil] at hl
          obtain rfl : r = [] := List.eq_nil_of_length_eq_zero (by omega)
          rw [List.length_nil] at hl
          obtain rfl : v = [] := List.eq_nil_of_length_eq_zero (by omega)
          rw [List.append_nil] at hv
          exact absurd hv h1
      · rw [e] at hv h1
        match w, v, h0, h1, hv with
        | a :: r, v, _, h1, hv =>
          have hl := congrArg List.length hv
          simp only [List.length_append, List.length_cons, List.length_nil] at hl
          obtain rfl : r = [] := List.eq_nil_of_length_eq_zero (by omega)
          rw [List.length_nil] at hl
          obtain rfl : v = [] := List.eq_nil_of_length_eq_zero (by omega)
          rw [List.append_nil] at hv
          exact absurd hv h1
  · rintro (⟨p, ⟨q, rfl⟩, rfl⟩ | ⟨p, c, ⟨q, rfl⟩, hn, rfl⟩)
    · rw [List.flatMap_append]; exact List.prefix_append _ _
    · rw [List.flatMap_append, List.flatMap_append, List.append_assoc]
      apply (List.prefix_append_right_inj _).mpr
      rw [List.flatMap_cons, show escB c = [92, c] from if_pos hn]
      exact ⟨_, rfl⟩

theorem trailing_append_ne (s : Bytes) {c : UInt8} (h : c ≠ 92) : trailing (s ++ [c]) = 0 := by
  simp [trailing, h]

theorem trailing_append_backslash (s : Bytes) : trailing (s ++ [92]) = trailing s + 1 := by
  simp [trailing]

theorem trailing_escape (s : Bytes) : trailing (s.flatMap escB) = 2 * trailing s := by
  induction s using List.reverseRecOn with
  | nil => rfl
  | append_singleton s c ih =>
    rw [List.flatMap_append]
    by_cases h : c = 92
    · subst h
      rw [trailing_append_backslash, show List.flatMap escB [92] = [92] ++ [92] by decide, ← List.append_assoc,
        trailing_append_backslash, trailing_append_backslash, ih]
      omega
    · rw [trailing_append_ne s h]
      rcases escB_cases c with ⟨_, e⟩ | ⟨_, e⟩
      · rw [show List.flatMap escB [c] = [92] ++ [c] by simp [e], ← List.append_assoc, trailing_append_ne _ h]
      · rw [show List.flatMap escB [c] = [c] by simp [e], trailing_append_ne _ h]

/-- C124.  Whether the cut was within an escape shows in the number of backslashes at the end. -/
theorem C124_escape_shows (sgn : Bool) (s u : Bytes) (h : u <+: escapeStr sgn s) :
    (∃ p, p <+: s ∧ u = escapeStr sgn p) ↔ Even (trailing u) := by
  constructor
  · rintro ⟨p, -, rfl⟩
    rw [escapeStr, escape_eq, trailing_escape]
    exact even_two_mul _
  · intro he
    rcases (C124_escape_cut sgn s u).mp h with h | ⟨p, c, -, -, rfl⟩
    · exact h
    · rw [escapeStr, escape_eq, trailing_append_backslash, trailing_escape, Nat.even_iff] at he
      omega

theorem unescape_cut (p : Bytes) : unescape (p.flatMap escB ++ [92]) = p ++ [92] := by
  induction p with
  | nil => rfl
  | cons c p ih =>
    rw [List.flatMap_cons, List.append_assoc]
    rcases escB_cases c with ⟨_, e⟩ | ⟨hn, e⟩
    · rw [e]
      show c :: unescape (p.flatMap escB ++ [92]) = _
      rw [ih]; rfl
    · rw [e]
      have hc : c ≠ 92 := fun h => hn (h ▸ backslash_escapes)
      rw [List.singleton_append, unescape, ih]
      · rfl
      · intro b t h
        exact absurd h hc

/-- C124.  Removing the escapes of what is left gives a prefix of the string, with a backslash too many at its end exactly if
the cut was within an escape. -/
theorem C124_escape_back (sgn : Bool) (s u : Bytes) (h : u <+: escapeStr sgn s) :
    ∃ p, p <+: s ∧ unescape u = if Even (trailing u) then p else p ++ [92] := by
  by_cases he : Even (trailing u)
  · obtain ⟨p, hp, rfl⟩ := (C124_escape_shows sgn s u h).mpr he
    exact ⟨p, hp, by rw [if_pos he, C14_escape_reversible]⟩
  · rcases (C124_escape_cut sgn s u).mp h with h' | ⟨p, c, hp, -, rfl⟩
    · exact absurd ((C124_escape_shows sgn s u h).mp h') he
    · refine ⟨p, (List.prefix_append p [c]).trans hp, ?_⟩
      rw [if_neg he, escapeStr, escape_eq, unescape_cut]

/-- Cut after the first and after the second backslash of an escaped backslash. -/
example : ascii "a\\" <+: escapeStr true (ascii "a\\b") ∧ trailing (ascii "a\\") = 1 ∧
    ascii "a\\\\" <+: escapeStr true (ascii "a\\b") ∧ trailing (ascii "a\\\\") = 2 := by decide

/-! ## `jsonify` -/

theorem readBody_skip (p x : Bytes) (f : ℕ) :
    readBody (f + p.length) (p.flatMap jsonB ++ x) = (readBody f x).map fun q => (p ++ q.1, q.2) := by
  induction p with
  | nil => cases h : readBody f x <;> simp [h]
  | cons c cs ih =>
    rw [List.flatMap_cons, List.append_assoc, List.length_cons, ← Nat.add_assoc]
    have h1 := readChar_jsonB c (cs.flatMap jsonB ++ x)
    obtain ⟨a, t, h2, h3⟩ := jsonB_head c (cs.flatMap jsonB ++ x)
    rw [h2] at h1 ⊢
    rw [readBody_succ _ _ fun r hc => h3 (List.cons.inj hc).1, h1]
    simp only [ih, Option.map_map]
    rfl

theorem readBody_nil (f : ℕ) : readBody f [] = none := by
  cases f <;> rfl

/-- A quote behind a part of an escape does not end the literal. -/
theorem readBody_part {c : UInt8} {w : Bytes} (hw : w <+: jsonB c) (h0 : w ≠ []) (h1 : w ≠ jsonB c) (f : ℕ) :
    readBody f (w ++ [34]) = none := by
  cases f with
  | zero => rfl
  | succ f =>
    obtain ⟨v, hv⟩ := hw
    have hv0 : v ≠ [] := by
      rintro rfl
      exact h1 (by simpa using hv)
    rcases jsonB_cases c with ⟨e, he, -, -⟩ | ⟨h, l, he, -, -⟩ | ⟨he, -, -, -⟩
    · rw [he] at hv
      match w, v, h0, hv0, hv with
      | [a], [b], _, _, hv =>
        cases hv
        rw [readBody_succ _ _ (by intro t h; cases h)]
        show Option.map _ (readBody f []) = none
        rw [readBody_nil]; rfl
      | a :: b :: r, d :: v, _, _, hv => exact absurd (congrArg List.length hv) (by simp)
      | [a], b :: d :: v, _, _, hv => exact absurd (congrArg List.length hv) (by simp)
    · rw [he] at hv
      have hq : hexVal 34 = none := by decide
      match w, v, h0, hv0, hv with
      | [a], _, _, _, hv =>
        cases hv
        rw [readBody_succ _ _ (by intro t h; cases h)]
        show Option.map _ (readBody f []) = none
        rw [readBody_nil]; rfl
      | [_, _], _, _, _, hv => cases hv; rw [readBody_succ _ _ (by intro t h; cases h)]; rfl
      | [_, _, _], _, _, _, hv => cases hv; rw [readBody_succ _ _ (by intro t h; cases h)]; rfl
      | [_, _, _, _], _, _, _, hv => cases hv; rw [readBody_succ _ _ (by intro t h; cases h)]; rfl
      | [_, _, _, _, _], _, _, _, hv =>
        cases hv
        rw [readBody_succ _ _ (by intro t h; cases h)]
        simp [readChar, hex4, hq]
      | a :: b :: c :: d :: e :: g :: r, x :: v, _, _, hv => exact absurd (congrArg List.length hv) (by simp)
    · rw [he] at hv
      match w, v, h0, hv0, hv with
      | a :: r, d :: v, _, _, hv => exact absurd (congrArg List.length hv) (by simp)

theorem json_ok {sgn : Bool} {s t : Bytes} (h : jsonifyStr sgn s = .ok t) : t = 34 :: (s.flatMap jsonB ++ [34]) := by
  rw [jsonifyStr_eq] at h
  cases h
  rfl

/-- C124.  A JSON text cut short and closed with a quote is read exactly if it was cut between the texts of two bytes, and then
as a prefix of the string: no cut gives another text. -/
theorem C124_json_closed (sgn : Bool) (s t u : Bytes) (ht : jsonifyStr sgn s = .ok t) (hu : u <+: t) (hne : u ≠ t)
    (h0 : u ≠ []) (d r : Bytes) :
    readString (u ++ [34]) = some (d, r) ↔ d <+: s ∧ r = [] ∧ jsonifyStr sgn d = .ok (u ++ [34]) := by
  rw [json_ok ht] at hu hne
  obtain ⟨v, rfl⟩ : ∃ v, u = 34 :: v := by
    cases u with
    | nil => exact absurd rfl h0
    | cons a v => exact ⟨v, by rw [(List.cons_prefix_cons.mp hu).1]⟩
  have hv : v <+: s.flatMap jsonB := by
    rcases prefix_append_cases (List.cons_prefix_cons.mp hu).2 with h | ⟨w, rfl, hw⟩
    · exact h
    · cases w with
      | nil => rw [List.append_nil]; exact List.prefix_rfl
      | cons a w =>
        obtain ⟨ha, hw'⟩ := List.cons_prefix_cons.mp hw
        rw [ha, List.prefix_nil.mp hw'] at hne
        exact absurd rfl hne
  constructor
  · intro h
    rcases prefix_flatMap jsonB hv with ⟨p, hp, rfl⟩ | ⟨p, c, w, -, hw, hw0, hw1, rfl⟩
    · obtain ⟨t', e, h1, -⟩ := C16_jsonify_decodes sgn p []
      rw [json_ok e] at h1
      rw [List.cons_append, h1] at h
      cases h
      exact ⟨hp, rfl, by rw [jsonifyStr_eq]; rfl⟩
    · rw [List.cons_append, readString, List.append_assoc] at h
      have hl := (flatMap_jsonB_length p).1
      obtain ⟨f, hf⟩ : ∃ f, (p.flatMap jsonB ++ (w ++ [34])).length + 1 = f + p.length :=
        ⟨(p.flatMap jsonB ++ (w ++ [34])).length + 1 - p.length, by
          rw [List.length_append]; omega⟩
      rw [hf, readBody_skip, readBody_part hw hw0 hw1] at h
      cases h
  · rintro ⟨-, rfl, e⟩
    obtain ⟨t', e', h1, -⟩ := C16_jsonify_decodes sgn d []
    rw [e] at e'
    cases e'
    exact h1

/-- The JSON text of "a", a line feed and a quote, cut after each of its bytes. -/
example : (List.range 8).map (fun n => readString ((ascii "\"a\\n\\\"\"").take n ++ [34])) =
      [none, some ([], []), some (ascii "a", []), none, some (ascii "a\n", []), none, some (ascii "a\n\"", []),
        some (ascii "a\n\"", [34])] ∧
    jsonifyStr true (ascii "a\n\"") = .ok (ascii "\"a\\n\\\"\"") := by decide +kernel

end Lexi
