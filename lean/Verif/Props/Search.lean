import Verif.Props.CutString

/-!
# C125: searching in escaped strings and JSON texts

A program that keeps the results of `escape` or `jsonify` and searches them for the result of another call, instead of undoing
both first.  The questions are about the strings, so no specification is needed.
-/

namespace Lexi
open Spec

/-- An escaped text that begins with a byte that needs escaping begins with the backslash of its first byte. -/
theorem head_escaped {c : UInt8} (hc : NeedsEscape c) {s q y : Bytes} (hs : s ≠ [])
    (h : c :: q = s.flatMap escB ++ y) : c = 92 ∧ ∃ a s', s = a :: s' ∧ NeedsEscape a ∧ q = a :: (s'.flatMap escB ++ y) := by
  cases s with
  | nil => exact absurd rfl hs
  | cons a s' =>
    rw [List.flatMap_cons] at h
    rcases escB_cases a with ⟨ha, e⟩ | ⟨ha, e⟩
    · rw [e] at h
      obtain ⟨h1, h2⟩ := List.cons.inj h
      exact ⟨h1, a, s', rfl, ha, h2⟩
    · rw [e] at h
      exact absurd ((List.cons.inj h).1 ▸ hc) ha

/-- A match that begins at the second backslash of an escaped backslash is a match of backslashes. -/
theorem shifted_prefix (q s y : Bytes) (h : 92 :: q.flatMap escB = s.flatMap escB ++ y) : s <+: 92 :: q := by
  induction q generalizing s with
  | nil =>
    by_cases hs : s = []
    · rw [hs]; exact List.nil_prefix
    · obtain ⟨-, a, s', rfl, -, h⟩ := head_escaped backslash_escapes hs h
      cases h
  | cons b q ih =>
    by_cases hs : s = []
    · rw [hs]; exact List.nil_prefix
    · obtain ⟨-, a, s', rfl, ha, h⟩ := head_escaped backslash_escapes hs h
      rw [List.flatMap_cons] at h
      rcases escB_cases b with ⟨hb, e⟩ | ⟨hb, e⟩
      · rw [e] at h
        obtain ⟨h1, h2⟩ := List.cons.inj h
        rw [← h1]
        refine List.cons_prefix_cons.mpr ⟨rfl, ?_⟩
        by_cases hs' : s' = []
        · rw [hs']; exact List.nil_prefix
        · have := (head_escaped hb hs' h2).1
          subst this
          exact ih s' h2
      · rw [e] at h
        exact absurd ((List.cons.inj h).1 ▸ ha) hb

theorem shifted_ne (q s : Bytes) : 92 :: q.flatMap escB ≠ s.flatMap escB := by
  induction q generalizing s with
  | nil =>
    intro h
    cases s with
    | nil => cases h
    | cons a s =>
      rcases escB_cases a with ⟨_, e⟩ | ⟨ha, e⟩
      · rw [List.flatMap_cons, e] at h; cases h
      · rw [List.flatMap_cons, e] at h
        exact ha ((List.cons.inj h).1 ▸ backslash_escapes)
  | cons b q ih =>
    intro h
    have hs : s ≠ [] := by rintro rfl; cases h
    obtain ⟨-, a, s', rfl, ha, h⟩ := head_escaped backslash_escapes hs (h.trans (List.append_nil _).symm)
    rw [List.flatMap_cons, List.append_nil] at h
    rcases escB_cases b with ⟨hb, e⟩ | ⟨hb, e⟩
    · rw [e] at h
      have h2 := (List.cons.inj h).2
      have hs' : s' ≠ [] := by rintro rfl; cases h2
      have := (head_escaped hb hs' (h2.trans (List.append_nil _).symm)).1
      subst this
      exact ih s' h2
    · rw [e] at h
      exact absurd ((List.cons.inj h).1 ▸ ha) hb

/-- C125.  One escaped string begins with another exactly if the strings do. -/
theorem C125_escape_prefix (sgn : Bool) (s t : Bytes) : escapeStr sgn s <+: escapeStr sgn t ↔ s <+: t := by
  constructor
  · intro h
    obtain ⟨p, hp, e⟩ := (C124_escape_shows sgn t _ h).mpr (by
      exact (C124_escape_shows sgn s _ List.prefix_rfl).mp ⟨s, List.prefix_rfl, rfl⟩)
    rw [C14_escape_injective sgn s p e]
    exact hp
  · rintro ⟨r, rfl⟩
    rw [(C15_escape_compositional sgn s r).1]
    exact List.prefix_append _ _

/-- C125.  One escaped string contains another exactly if the strings do: what looks like a match across an escape is one. -/
theorem C125_escape_infix (sgn : Bool) (s t : Bytes) : escapeStr sgn s <:+: escapeStr sgn t ↔ s <:+: t := by
  constructor
  · rintro ⟨x, y, h⟩
    rcases (C124_escape_cut sgn t x).mp ⟨escapeStr sgn s ++ y, by rw [← h, List.append_assoc]⟩ with
      ⟨p, ⟨q, rfl⟩, rfl⟩ | ⟨p, c, ⟨q, rfl⟩, hc, rfl⟩
    · rw [(C15_escape_compositional sgn p q).1, List.append_assoc] at h
      obtain ⟨r, rfl⟩ := (C125_escape_prefix sgn s q).mp ⟨y, List.append_cancel_left h⟩
      exact ⟨p, r, by rw [List.append_assoc]⟩
    · rw [List.append_assoc p, (C15_escape_compositional sgn p _).1, List.append_assoc, List.append_assoc] at h
      have h := List.append_cancel_left h
      simp only [escapeStr, escape_eq, List.flatMap_cons, show escB c = [92, c] from if_pos hc,
        List.cons_append, List.nil_append] at h
      have h := (List.cons.inj h).2.symm
      by_cases hs : s = []
      · rw [hs]; exact List.nil_infix
      · have := (head_escaped hc hs h).1
        subst this
        obtain ⟨r, hr⟩ := shifted_prefix q s y h
        exact ⟨p, r, by rw [List.append_assoc, hr, List.append_assoc]; rfl⟩
  · rintro ⟨x, y, rfl⟩
    rw [(C15_escape_compositional sgn (x ++ s) y).1, (C15_escape_compositional sgn x s).1]
    exact ⟨_, _, rfl⟩

/-- C125.  One escaped string ends with another exactly if the strings do. -/
theorem C125_escape_suffix (sgn : Bool) (s t : Bytes) : escapeStr sgn s <:+ escapeStr sgn t ↔ s <:+ t := by
  constructor
  · rintro ⟨x, h⟩
    rcases (C124_escape_cut sgn t x).mp ⟨escapeStr sgn s, h⟩ with ⟨p, ⟨q, rfl⟩, rfl⟩ | ⟨p, c, ⟨q, rfl⟩, hc, rfl⟩
    · rw [(C15_escape_compositional sgn p q).1] at h
      rw [C14_escape_injective sgn s q (List.append_cancel_left h)]
      exact List.suffix_append _ _
    · rw [List.append_assoc p, (C15_escape_compositional sgn p _).1, List.append_assoc] at h
      have h := List.append_cancel_left h
      simp only [escapeStr, escape_eq, List.flatMap_cons, show escB c = [92, c] from if_pos hc,
        List.cons_append, List.nil_append] at h
      have h := (List.cons.inj h).2.symm
      by_cases hs : s = []
      · rw [hs]; exact List.nil_suffix
      · have := (head_escaped hc hs (h.trans (List.append_nil _).symm)).1
        subst this
        exact absurd h (shifted_ne q s)
  · rintro ⟨x, rfl⟩
    rw [(C15_escape_compositional sgn x s).1]
    exact List.suffix_append _ _

/-- A match across an escape: a backslash begins at the second of the three here. -/
example : escapeStr true (ascii "\\") <:+: escapeStr true (ascii "\\.") ∧
    escapeStr true (ascii "\\.") = ascii "\\" ++ escapeStr true (ascii "\\") ++ ascii "." := by decide

/-- C125.  The JSON text of one string, without its last quote, is at the beginning of that of another exactly if the strings
begin so. -/
theorem C125_json_prefix (sgn : Bool) (s t u v : Bytes) (hu : jsonifyStr sgn s = .ok (u ++ [34]))
    (hv : jsonifyStr sgn t = .ok v) : u <+: v ↔ s <+: t := by
  have hs : readString (u ++ [34]) = some (s, []) := by
    obtain ⟨w, e, h, -⟩ := C16_jsonify_decodes sgn s []
    rw [hu] at e; cases e
    exact h
  constructor
  · intro h
    have h0 : u ≠ [] := by
      rintro rfl
      have := json_ok hu
      cases hf : s.flatMap jsonB <;> rw [hf] at this <;> cases this
    have hne : u ≠ v := by
      rintro rfl
      obtain ⟨w, e, -, h⟩ := C16_jsonify_decodes sgn t [34]
      rw [hv] at e; cases e
      rw [h] at hs
      cases hs
    exact ((C124_json_closed sgn t v u hv h hne h0 s []).mp hs).1
  · rintro ⟨r, rfl⟩
    rw [json_ok hv, List.flatMap_append]
    have e := json_ok hu
    rw [← List.cons_append] at e
    rw [List.append_inj_left' e rfl, List.append_assoc, List.cons_prefix_cons]
    exact ⟨rfl, List.prefix_append _ _⟩

example : jsonifyStr true (ascii "a\n") = .ok (ascii "\"a\\n" ++ [34]) ∧
    jsonifyStr true (ascii "a\nb") = .ok (ascii "\"a\\nb\"") ∧ ascii "\"a\\n" <+: ascii "\"a\\nb\"" := by decide

/-- C125.  Without either quote it is within that of every string that contains the other, but also elsewhere: the JSON text of a
line feed contains that of the letter n. -/
theorem C125_json_infix (sgn : Bool) :
    (∀ s t u v : Bytes, jsonifyStr sgn s = .ok (34 :: (u ++ [34])) → jsonifyStr sgn t = .ok v → s <:+: t → u <:+: v) ∧
    ∃ s t u v : Bytes, jsonifyStr sgn s = .ok (34 :: (u ++ [34])) ∧ jsonifyStr sgn t = .ok v ∧ u <:+: v ∧ ¬ s <:+: t := by
  constructor
  · rintro s t u v hu hv ⟨x, y, rfl⟩
    have e := List.append_inj_left' (List.cons.inj (json_ok hu)).2 rfl
    rw [e, json_ok hv, List.flatMap_append, List.flatMap_append]
    exact ⟨34 :: x.flatMap jsonB, y.flatMap jsonB ++ [34], by simp⟩
  · refine ⟨ascii "n", ascii "\n", ascii "n", ascii "\"\\n\"", ?_, ?_, ?_, ?_⟩ <;> cases sgn <;> decide

theorem jsonB_tail (c b : UInt8) (h : b ∈ (jsonB c).tail) : b ∈ ascii "\"\\bfnrtu0123456789abcdef" := by
  have : ∀ c : UInt8, (jsonB c).tail.all (fun b => decide (b ∈ ascii "\"\\bfnrtu0123456789abcdef")) = true := by
    apply forall_byte
    decide +kernel
  simpa using List.all_eq_true.mp (this c) b h

/-- C125.  There is no false occurrence if the text searched for begins with a byte that stands for itself and is not used within
escapes, for example with a capital letter or beyond ASCII. -/
theorem C125_json_infix_plain (sgn : Bool) (a : UInt8) (s t u v : Bytes) (hu : jsonifyStr sgn (a :: s) = .ok (34 :: (u ++ [34])))
    (hv : jsonifyStr sgn t = .ok v) (ha : a ∉ ascii "\"\\bfnrtu0123456789abcdef") (ha' : ¬ a < 32) :
    u <:+: v ↔ a :: s <:+: t := by
  refine ⟨?_, (C125_json_infix sgn).1 _ _ _ _ hu hv⟩
  have hj : jsonB a = [a] := by
    rcases jsonB_cases a with ⟨e, h, -, h2⟩ | ⟨h, l, -, -, h2⟩ | ⟨h, -⟩
    · have : ∀ b : UInt8, (jsonB b).length = 1 ∨ b ∈ ascii "\"\\bfnrtu0123456789abcdef" ∨ b < 32 := by
        apply forall_byte
        decide +kernel
      rcases this a with hl | hm | hm
      · rw [h] at hl; cases hl
      · exact absurd hm ha
      · exact absurd hm ha'
    · exact absurd h2 ha'
    · exact h
  have hu' : u = a :: s.flatMap jsonB := by
    have := List.append_inj_left' (List.cons.inj (json_ok hu)).2 rfl
    rw [this, List.flatMap_cons, hj]; rfl
  have hne : ∀ {b : UInt8} {r z : Bytes}, u ++ z = b :: r → b = a := by
    intro b r z h
    rw [hu'] at h
    exact (List.cons.inj h).1.symm
  rintro ⟨x, y, h⟩
  rw [json_ok hv, List.append_assoc] at h
  cases x with
  | nil => exact absurd (hne h ▸ (by decide)) ha
  | cons b x =>
    have h : x ++ (u ++ y) = t.flatMap jsonB ++ [34] := (List.cons.inj h).2
    rcases prefix_append_cases (⟨u ++ y, h⟩ : x <+: t.flatMap jsonB ++ [34]) with hx | ⟨w, rfl, hw⟩
    · rcases prefix_flatMap jsonB hx with ⟨p, ⟨q, rfl⟩, rfl⟩ | ⟨p, c, w, ⟨q, rfl⟩, ⟨r, hr⟩, h0, h1, rfl⟩
      · rw [List.flatMap_append, List.append_assoc] at h
        have h := List.append_cancel_left h
        have := (C125_json_prefix sgn (a :: s) q (34 :: u) _ hu (jsonifyStr_eq sgn q)).mp
          (List.cons_prefix_cons.mpr ⟨rfl, ⟨y, h⟩⟩)
        exact this.isInfix.trans (List.suffix_append p q).isInfix
      · rw [List.flatMap_append, List.flatMap_append, List.append_assoc, List.append_assoc, List.append_assoc,
          show List.flatMap jsonB [c] = w ++ r by simp [hr], List.append_assoc] at h
        have h := List.append_cancel_left (List.append_cancel_left h)
        cases r with
        | nil => exact absurd (by simpa using hr) h1
        | cons d r =>
          have hd := hne h
          cases w with
          | nil => exact absurd rfl h0
          | cons e w =>
            exact absurd (hd ▸ jsonB_tail c d (by rw [← hr]; simp)) ha
    · rw [List.append_assoc] at h
      have h := List.append_cancel_left h
      cases w with
      | nil => exact absurd (hne h ▸ (by decide)) ha
      | cons d w =>
        have hl := congrArg List.length h
        rw [hu'] at hl
        simp at hl

example : jsonifyStr true (ascii "N\n") = .ok (34 :: (ascii "N\\n" ++ [34])) ∧ 78 ∉ ascii "\"\\bfnrtu0123456789abcdef" := by decide

end Lexi
