import Verif.Model.Dispatch

/-!
# Overload selection: C46
-/

namespace Lexi
open Spec Dispatch

local macro "table" : tactic => `(tactic| simp [formatOverloads, extractOverloads, lexiOverloads, pathOverloads, overloads,
  enabled, decay, removeRef, removeCv, isNullPointer, isBool, isChar, isInteger, isFloat, isEnum, isFpos, isString,
  isStdString, isStringLiteral, isCstr, Base.kind, List.filter])

theorem extract_base (c v : Bool) (b : Base) :
    extractOverloads (.base c v b) =
      match b.kind with
      | some k => if c || v then (if k = .null ∨ k = .bool ∨ k = .char ∨ k = .enum then [k] else []) else [k]
      | none => [] := by
  cases c <;> cases v <;> cases b <;> table

theorem extract_other (t : Ty) (h : ∀ c v b, t ≠ .base c v b) : extractOverloads t = [] := by
  cases t with
  | base c v b => exact absurd rfl (h c v b)
  | _ => table

/-- What `Format` picks, for every type. -/
theorem format_exact (t : Ty) :
    formatOverloads t = match t.noRef with
      | .base _ _ b => b.kind.toList
      | _ => [] := by
  have key : ∀ u : Ty, decay t = (match u with
      | .arr _ e => .ptr false false e
      | .func i => .ptr false false (.func i)
      | u => removeCv u) → formatOverloads t = match u with
      | .base _ _ b => b.kind.toList
      | _ => [] := by
    intro u hu
    have e : formatOverloads t = extractOverloads (decay t) := rfl
    rw [e, hu]
    cases u with
    | base c v b =>
      simp only [removeCv, extract_base]
      cases b.kind <;> rfl
    | _ => exact extract_other _ (by intros; simp [removeCv])
  cases t with
  | ref r u => exact key u rfl
  | base c v b => exact key (.base c v b) rfl
  | ptr c v t => exact key (.ptr c v t) rfl
  | memptr c v i => exact key (.memptr c v i) rfl
  | arr n t => exact key (.arr n t) rfl
  | func i => exact key (.func i) rfl

/-- C46.  No type makes two formatting or two extraction overloads viable. -/
theorem C46_at_most_one (t : Ty) : (formatOverloads t).length ≤ 1 ∧ (extractOverloads t).length ≤ 1 := by
  constructor
  · rw [format_exact]
    split
    · rename_i b _
      cases b.kind <;> simp
    · simp
  · by_cases h : ∃ c v b, t = .base c v b
    · obtain ⟨c, v, b, rfl⟩ := h
      rw [extract_base]
      split
      · split
        · split <;> simp
        · simp
      · simp
    · rw [extract_other t (fun c v b e => h ⟨c, v, b, e⟩)]
      simp

/-- C46.  Formatting works for exactly the supported types, however qualified and referenced, by the overload of the type's
kind. -/
theorem C46_format (t : Ty) (k : Kind) :
    formatOverloads t = [k] ↔ ∃ c v b, t.noRef = .base c v b ∧ b.kind = some k := by
  rw [format_exact]
  constructor
  · intro h
    split at h
    · rename_i c v b e
      refine ⟨c, v, b, e, ?_⟩
      cases hk : b.kind with
      | none => rw [hk] at h; cases h
      | some k' => rw [hk] at h; simpa using h
    · cases h
  · rintro ⟨c, v, b, e, hk⟩
    rw [e]
    simp [hk]

/-- C46.  Extraction: for an unqualified type, exactly the supported types, by the overload of the type's kind. -/
theorem C46_extract (b : Base) (k : Kind) : extractOverloads (.base false false b) = [k] ↔ b.kind = some k := by
  rw [extract_base]
  cases hk : b.kind with
  | none => simp
  | some k' => simp

/-- C46.  Extraction of `const` or `volatile` types: only for `nullptr_t`, `bool`, `char` and enumerations; the integer,
floating and stream position traits do not see through the qualifier. -/
theorem C46_extract_cv (c v : Bool) (b : Base) (k : Kind) (hcv : (c || v) = true) :
    extractOverloads (.base c v b) = [k] ↔ b.kind = some k ∧ (k = .null ∨ k = .bool ∨ k = .char ∨ k = .enum) := by
  rw [extract_base]
  cases hk : b.kind with
  | none => simp
  | some k' =>
    simp only [hcv, if_true]
    split
    · rename_i h
      constructor
      · intro e
        have e : k' = k := by simpa using e
        subst e
        exact ⟨rfl, h⟩
      · rintro ⟨e, -⟩
        injection e with e
        rw [e]
    · rename_i h
      constructor
      · intro e; cases e
      · rintro ⟨e, e'⟩
        injection e with e
        exact absurd (e ▸ e') h

/-- C46.  Whatever can be extracted is formatted by the same kind, and for unqualified, unreferenced types the two overload
sets are equal. -/
theorem C46_same_kind (t : Ty) :
    (∀ k, extractOverloads t = [k] → formatOverloads t = [k]) ∧
    (decay t = t → extractOverloads t = formatOverloads t) := by
  constructor
  · intro k h
    by_cases hb : ∃ c v b, t = .base c v b
    · obtain ⟨c, v, b, rfl⟩ := hb
      rw [C46_format]
      refine ⟨c, v, b, rfl, ?_⟩
      rw [extract_base] at h
      cases hk : b.kind with
      | none => rw [hk] at h; cases h
      | some k' =>
        rw [hk] at h
        dsimp only at h
        split at h
        · split at h
          · simpa using h
          · cases h
        · simpa using h
    · rw [extract_other t (fun c v b e => hb ⟨c, v, b, e⟩)] at h
      cases h
  · intro h
    rw [formatOverloads, h]
    rfl

/-- C46.  The string types are exactly the text-like ones, … -/
theorem C46_isString (t : Ty) : isString t = true ↔ t.Text := by
  have ptr : ∀ u : Ty, (∀ r w, u ≠ .ref r w) →
      ((removeCv (match u with
        | .arr _ e => .ptr false false e
        | .func i => .ptr false false (.func i)
        | u => removeCv u) = .ptr false false (.base true false .char) ∨
       removeCv (match u with
        | .arr _ e => .ptr false false e
        | .func i => .ptr false false (.func i)
        | u => removeCv u) = .ptr false false (.base false false .char)) ↔
      (∃ c c' v', u = .ptr c' v' (.base c false .char)) ∨ (∃ c n, u = .arr n (.base c false .char))) := by
    intro u hr
    cases u with
    | ref r w => exact absurd rfl (hr r w)
    | base c v b => simp [removeCv]
    | memptr c v i => simp [removeCv]
    | func i => simp [removeCv]
    | ptr c v t =>
      simp only [removeCv, Ty.ptr.injEq, true_and, reduceCtorEq, exists_false, or_false]
      constructor
      · rintro (h | h)
        · exact ⟨true, c, v, rfl, rfl, h⟩
        · exact ⟨false, c, v, rfl, rfl, h⟩
      · rintro ⟨q, c', v', -, -, h⟩
        cases q
        · exact Or.inr h
        · exact Or.inl h
    | arr n t =>
      simp only [removeCv, Ty.ptr.injEq, Ty.arr.injEq, true_and, reduceCtorEq, exists_false, false_or]
      constructor
      · rintro (h | h)
        · exact ⟨true, n, rfl, h⟩
        · exact ⟨false, n, rfl, h⟩
      · rintro ⟨q, n', -, h⟩
        cases q
        · exact Or.inr h
        · exact Or.inl h
  have std : isStdString t = true ↔ ∃ c v, t = .base c v .string ∨ ∃ id, t = .base c v (.derived id) := by
    cases t with
    | base c v b => cases b <;> simp [isStdString]
    | _ => simp [isStdString]
  have main : ∀ u : Ty, removeRef t = u → t.noRef = u → (∀ r w, u ≠ .ref r w) → (isString t = true ↔ t.Text) := by
    intro u hu hn hr
    unfold isString Ty.Text isCstr isStringLiteral decay
    rw [hu, hn]
    simp only [Bool.or_eq_true, decide_eq_true_eq, or_assoc, std]
    exact or_congr Iff.rfl (ptr u hr)
  cases t with
  | ref r u =>
    by_cases h : ∃ r' w, u = .ref r' w
    · obtain ⟨r', w, rfl⟩ := h
      simp [isString, isStdString, isCstr, isStringLiteral, decay, removeRef, removeCv, Ty.Text, Ty.noRef]
    · exact main u rfl rfl (fun r w e => h ⟨r, w, e⟩)
  | base c v b => exact main _ rfl rfl (fun _ _ h => by cases h)
  | ptr c v t => exact main _ rfl rfl (fun _ _ h => by cases h)
  | memptr c v i => exact main _ rfl rfl (fun _ _ h => by cases h)
  | arr n t => exact main _ rfl rfl (fun _ _ h => by cases h)
  | func i => exact main _ rfl rfl (fun _ _ h => by cases h)

/-- C46.  … they take the string path and no value overload exists for them; every other type takes the value path. -/
theorem C46_strings (t : Ty) :
    (t.Text → pathOverloads t = [true] ∧ formatOverloads t = [] ∧ extractOverloads t = [] ∧ lexiOverloads t = []) ∧
    (¬ t.Text → pathOverloads t = [false] ∧ lexiOverloads t = extractOverloads t) := by
  constructor
  · intro h
    have hs := (C46_isString t).mpr h
    have hf : formatOverloads t = [] := by
      rw [format_exact]
      rcases h with ⟨c, v, rfl | ⟨id, rfl⟩⟩ | ⟨c, c', v', e⟩ | ⟨c, n, e⟩
      · rfl
      · rfl
      · rw [e]
      · rw [e]
    have hx : extractOverloads t = [] := by
      by_cases hb : ∃ k, extractOverloads t = [k]
      · obtain ⟨k, hk⟩ := hb
        rw [(C46_same_kind t).1 k hk] at hf
        cases hf
      · have := (C46_at_most_one t).2
        match hl : extractOverloads t with
        | [] => rfl
        | [k] => exact absurd ⟨k, hl⟩ hb
        | _ :: _ :: _ => rw [hl] at this; simp at this
    exact ⟨by simp [pathOverloads, hs, List.filter], hf, hx, by simp [lexiOverloads, hs]⟩
  · intro h
    have hs : isString t = false := by
      rw [← Bool.not_eq_true, C46_isString]
      exact h
    exact ⟨by simp [pathOverloads, hs, List.filter], by simp [lexiOverloads, hs]⟩

/-! ### Inhabited hypotheses, and the qualifier asymmetry -/

example : formatOverloads (.ref false (.base true false .int)) = [.int] := by decide
example : extractOverloads (.base false false (.fpos 3)) = [.fpos] ∧ formatOverloads (.base true true (.fpos 3)) = [.fpos] := by decide
/-- `lexi<const int>(text)` does not compile; `lexi<const bool>(text)` does. -/
example : lexiOverloads (.base true false .int) = [] ∧ lexiOverloads (.base true false .bool) = [.bool] := by decide
/-- `"abc"` is a `const char[4]`. -/
example : Ty.Text (.arr (some 4) (.base true false .char)) := Or.inr (Or.inr ⟨true, some 4, rfl⟩)
example : ¬ Ty.Text (.ptr false false (.base false false .uchar)) := by
  rw [← C46_isString]; decide
example : (true || false) = true ∧ extractOverloads (.base true false (.enum 5)) = [.enum] := by decide

end Lexi
