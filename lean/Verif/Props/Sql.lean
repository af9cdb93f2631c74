import Verif.Spec.Sql
import Verif.Props.Str
import Mathlib.Order.Basic
import Mathlib.Tactic.Push

/-!
# C119: texts in SQL literals
-/

namespace Lexi
open Spec

theorem inFront_some (x v r : Bytes) : inFront x (some (v, r)) = some (x ++ v, r) := rfl

theorem inFront_inFront (x y : Bytes) (o : Option (Bytes × Bytes)) : inFront x (inFront y o) = inFront (x ++ y) o := by
  cases o <;> simp [inFront]

theorem inFront_nil (o : Option (Bytes × Bytes)) : inFront [] o = o := by cases o <;> simp [inFront]

theorem inFront_eq {x : Bytes} {o : Option (Bytes × Bytes)} {v r : Bytes} (h : inFront x o = some (v, r)) :
    ∃ w, o = some (w, r) ∧ v = x ++ w := by
  cases o with
  | none => cases h
  | some p =>
    obtain ⟨w, r'⟩ := p
    have := Option.some.inj h
    simp only [Prod.mk.injEq] at this
    exact ⟨w, by rw [this.2], this.1.symm⟩

/-- What follows the literal does not begin with another quote. -/
def Ends (r : Bytes) : Prop := r.head? ≠ some 39

instance (r : Bytes) : Decidable (Ends r) := inferInstanceAs (Decidable (r.head? ≠ some 39))

theorem escB_cases (c : UInt8) : (NeedsEscape c ∧ escB c = [92, c]) ∨ (¬ NeedsEscape c ∧ escB c = [c]) := by
  by_cases h : NeedsEscape c
  · exact .inl ⟨h, if_pos h⟩
  · exact .inr ⟨h, if_neg h⟩

theorem quote_escapes : NeedsEscape 39 := by decide
theorem backslash_escapes : NeedsEscape 92 := by decide

theorem escB_ends (s r : Bytes) (h : s ≠ []) : Ends (s.flatMap escB ++ r) := by
  cases s with
  | nil => exact absurd rfl h
  | cons c s =>
    unfold Ends
    rw [List.flatMap_cons]
    rcases escB_cases c with ⟨hc, e⟩ | ⟨hc, e⟩ <;> rw [e]
    · simp
    · simp only [List.cons_append, List.nil_append, List.head?_cons, ne_eq, Option.some.injEq]
      rintro rfl; exact hc quote_escapes

/-! ### Standard SQL -/

theorem sql_close (r : Bytes) (h : Ends r) : sqlRest (39 :: r) = some ([], r) := by
  cases r with
  | nil => rfl
  | cons c r =>
    have : c ≠ 39 := fun e => h (by rw [e]; rfl)
    rw [sqlRest.eq_def]; simp [this]

theorem sql_plain (x t : Bytes) (h : 39 ∉ x) : sqlRest (x ++ t) = inFront x (sqlRest t) := by
  induction x with
  | nil => rw [inFront_nil]; rfl
  | cons b x ih =>
    simp only [List.mem_cons, not_or] at h
    rw [List.cons_append, sqlRest.eq_def]
    dsimp only
    rw [if_neg (fun e => h.1 e.symm), ih h.2, inFront_inFront]; rfl

theorem sql_shorter (t : Bytes) : ∀ v r, sqlRest t = some (v, r) → r.length < t.length := by
  induction t using sqlRest.induct with
  | case1 => intro v r h; cases h
  | case2 => intro v r h; rw [sqlRest.eq_def] at h; simp at h; simp [← h.2]
  | case3 t ih =>
    intro v r h; rw [sqlRest.eq_def] at h; dsimp only at h; rw [if_pos rfl, if_pos rfl] at h
    obtain ⟨w, h, -⟩ := inFront_eq h
    have := ih _ _ h
    simp only [List.length_cons]; omega
  | case4 c t hc =>
    intro v r h; rw [sqlRest.eq_def] at h; dsimp only at h; rw [if_pos rfl, if_neg hc] at h
    simp at h; simp [← h.2]
  | case5 b t hb ih =>
    intro v r h; rw [sqlRest.eq_def] at h; dsimp only at h; rw [if_neg hb] at h
    obtain ⟨w, h, -⟩ := inFront_eq h
    have := ih _ _ h
    simp only [List.length_cons]; omega

theorem escB_flat_no_quote (s : Bytes) (h : 39 ∉ s) : 39 ∉ s.flatMap escB := by
  intro hm
  obtain ⟨c, hc, hb⟩ := List.mem_flatMap.mp hm
  rcases escB_cases c with ⟨-, e⟩ | ⟨-, e⟩ <;> rw [e] at hb <;> simp at hb <;> exact h (hb ▸ hc)

theorem flat_escB_length (s : Bytes) : s.length ≤ (s.flatMap escB).length ∧
    ((s.flatMap escB).length = s.length → ∀ b ∈ s, ¬ NeedsEscape b) := by
  induction s with
  | nil => simp
  | cons c s ih =>
    rw [List.flatMap_cons, List.length_append, List.length_cons]
    rcases escB_cases c with ⟨hc, e⟩ | ⟨hc, e⟩ <;> rw [e]
    · simp only [List.length_cons, List.length_nil]
      exact ⟨by omega, fun h => by omega⟩
    · simp only [List.length_cons, List.length_nil]
      refine ⟨by omega, fun h b hb => ?_⟩
      rcases List.mem_cons.mp hb with rfl | hb
      exacts [hc, ih.2 (by omega) b hb]

theorem flat_escB_same (s : Bytes) (h : ∀ b ∈ s, ¬ NeedsEscape b) : s.flatMap escB = s := by
  induction s with
  | nil => rfl
  | cons c s ih =>
    rw [List.flatMap_cons, ih fun b hb => h b (by simp [hb]), escB, if_neg (h c (by simp))]; rfl

theorem first_quote (s : Bytes) (h : 39 ∈ s) : ∃ a b, s = a ++ 39 :: b ∧ 39 ∉ a := by
  induction s with
  | nil => cases h
  | cons c s ih =>
    by_cases hc : c = 39
    · exact ⟨[], s, by rw [hc]; rfl, by simp⟩
    · obtain ⟨a, b, e, hn⟩ := ih (by rcases List.mem_cons.mp h with e | e; exacts [absurd e.symm hc, e])
      exact ⟨c :: a, b, by rw [e]; rfl, by simp [hn, Ne.symm hc]⟩

/-- C119, standard SQL.  A quote in the middle of a string gets out of the literal in spite of `escape`: what is behind it, escaped,
is left as program text. -/
theorem C119_standard_breakout (sgn : Bool) (a b r : Bytes) (ha : 39 ∉ a) (hb : b ≠ []) :
    sqlRest (escape sgn (a ++ 39 :: b) ++ 39 :: r) = some (escape sgn a ++ [92], escape sgn b ++ 39 :: r) := by
  simp only [escape_eq]
  rw [List.flatMap_append, List.flatMap_cons, escB, if_pos quote_escapes]
  have e : a.flatMap escB ++ ([92, 39] ++ b.flatMap escB) ++ 39 :: r =
      (a.flatMap escB ++ [92]) ++ (39 :: (b.flatMap escB ++ 39 :: r)) := by simp
  rw [e, sql_plain _ _ (by simp [escB_flat_no_quote a ha]), sql_close _ (escB_ends b _ hb), inFront_some, List.append_nil]

/-- C119, standard SQL.  The literal made of an escaped string reads as that string, and ends where it should, exactly if there was
nothing to escape. -/
theorem C119_standard (sgn : Bool) (s r : Bytes) (hr : Ends r) :
    sqlRest (escape sgn s ++ 39 :: r) = some (s, r) ↔ ∀ b ∈ s, ¬ NeedsEscape b := by
  constructor
  · intro h
    by_cases hq : 39 ∈ s
    · exfalso
      obtain ⟨a, b, rfl, ha⟩ := first_quote s hq
      by_cases hb : b = []
      · subst hb
        simp only [escape_eq] at h
        rw [List.flatMap_append, List.flatMap_cons, escB, if_pos quote_escapes] at h
        have e : a.flatMap escB ++ ([92, 39] ++ List.flatMap escB []) ++ 39 :: r =
            (a.flatMap escB ++ [92]) ++ (39 :: 39 :: r) := by simp
        rw [e, sql_plain _ _ (by simp [escB_flat_no_quote a ha])] at h
        obtain ⟨w, h1, -⟩ := inFront_eq h
        rw [sqlRest.eq_def] at h1
        simp only [if_true] at h1
        obtain ⟨w', h2, -⟩ := inFront_eq h1
        exact absurd (sql_shorter _ _ _ h2) (Nat.lt_irrefl _)
      · rw [C119_standard_breakout sgn a b r ha hb] at h
        have := congrArg (fun o : Option (Bytes × Bytes) => (o.map fun p => p.2.length)) h
        simp at this
        omega
    · simp only [escape_eq] at h
      rw [sql_plain _ _ (escB_flat_no_quote s hq), sql_close r hr, inFront_some, List.append_nil] at h
      have := (Prod.mk.inj (Option.some.inj h)).1
      exact (flat_escB_length s).2 (by rw [this])
  · intro h
    have hq : 39 ∉ s := fun hm => h 39 hm quote_escapes
    simp only [escape_eq]
    rw [sql_plain _ _ (escB_flat_no_quote s hq), sql_close r hr, inFront_some, List.append_nil, flat_escB_same s h]

/-- Text that reads as it is, and `a'; x` which gets out. -/
example : sqlRest (escape true [97, 98, 49] ++ 39 :: [59]) = some ([97, 98, 49], [59]) :=
  (C119_standard true _ _ (by decide)).mpr (by decide)
example : sqlRest (escape true [97, 39, 59, 120] ++ 39 :: []) = some ([97, 92], [92, 59, 120, 39]) := by
  have := C119_standard_breakout true [97] [59, 120] [] (by decide) (by decide)
  have e : escape true [97] = [97] := by decide
  have e' : escape true [59, 120] = [92, 59, 120] := by decide
  simpa [e, e'] using this

/-! ### MySQL -/

theorem mysql_close (r : Bytes) (h : Ends r) : mysqlRest (39 :: r) = some ([], r) := by
  cases r with
  | nil => rfl
  | cons c r =>
    have : c ≠ 39 := fun e => h (by rw [e]; rfl)
    rw [mysqlRest.eq_def]; simp [this]

theorem mysql_esc (c : UInt8) (t : Bytes) : mysqlRest (92 :: c :: t) = inFront (mysqlEscape c) (mysqlRest t) := by
  rw [mysqlRest.eq_def]; rfl

theorem mysql_one (c : UInt8) (t : Bytes) (h : c ≠ 39) (h' : c ≠ 92) : mysqlRest (c :: t) = inFront [c] (mysqlRest t) := by
  rw [mysqlRest.eq_def]; dsimp only; rw [if_neg h, if_neg h']

/-- `%` and `_`, the wildcards of `LIKE`. -/
def wild (c : UInt8) : Bytes := if c = 37 ∨ c = 95 then [92, c] else [c]

theorem mysqlEscape_needs : ∀ c : UInt8, NeedsEscape c → mysqlEscape c = wild c := by
  apply forall_byte; decide +kernel

theorem wild_plain : ∀ c : UInt8, ¬ NeedsEscape c → wild c = [c] ∧ c ≠ 39 ∧ c ≠ 92 := by
  apply forall_byte; decide +kernel

theorem mysql_escape (s t : Bytes) : mysqlRest (s.flatMap escB ++ t) = inFront (s.flatMap wild) (mysqlRest t) := by
  induction s with
  | nil => simp [inFront_nil]
  | cons c s ih =>
    rw [List.flatMap_cons, List.flatMap_cons, List.append_assoc]
    rcases escB_cases c with ⟨hc, e⟩ | ⟨hc, e⟩ <;> rw [e]
    · rw [List.cons_append, List.cons_append, List.nil_append, mysql_esc, ih, inFront_inFront, mysqlEscape_needs c hc]
    · obtain ⟨w, h1, h2⟩ := wild_plain c hc
      rw [List.cons_append, List.nil_append, mysql_one c _ h1 h2, ih, inFront_inFront, w]

theorem wild_same (s : Bytes) : s.length ≤ (s.flatMap wild).length ∧ (s.flatMap wild = s ↔ 37 ∉ s ∧ 95 ∉ s) := by
  induction s with
  | nil => simp
  | cons c s ih =>
    rw [List.flatMap_cons]
    by_cases h : c = 37 ∨ c = 95
    · rw [wild, if_pos h]
      refine ⟨by simp only [List.length_append, List.length_cons, List.length_nil]; omega, fun e => ?_, fun e => ?_⟩
      · have := congrArg List.length e
        simp only [List.length_append, List.length_cons, List.length_nil] at this
        omega
      · rcases h with rfl | rfl <;> simp at e
    · rw [wild, if_neg h]
      push Not at h
      refine ⟨by simp only [List.length_append, List.length_cons, List.length_nil]; omega, ?_⟩
      simp only [List.cons_append, List.nil_append, List.cons.injEq, true_and, ih.2, List.mem_cons, not_or]
      exact ⟨fun e => ⟨⟨h.1.symm, e.1⟩, h.2.symm, e.2⟩, fun e => ⟨e.1.2, e.2.2⟩⟩

/-- C119, MySQL.  The literal made of an escaped string always ends where it should, and reads as the string with a backslash in
front of each `%` and each `_`. -/
theorem C119_mysql (sgn : Bool) (s r : Bytes) (hr : Ends r) :
    mysqlRest (escape sgn s ++ 39 :: r) = some (s.flatMap fun c => if c = 37 ∨ c = 95 then [92, c] else [c], r) := by
  rw [escape_eq, mysql_escape, mysql_close r hr, inFront_some, List.append_nil]; rfl

/-- C119, MySQL.  So it reads as the string exactly if there is no `%` and no `_` in it. -/
theorem C119_mysql_same (sgn : Bool) (s r : Bytes) (hr : Ends r) :
    mysqlRest (escape sgn s ++ 39 :: r) = some (s, r) ↔ 37 ∉ s ∧ 95 ∉ s := by
  rw [escape_eq, mysql_escape, mysql_close r hr, inFront_some, List.append_nil, Option.some.injEq, Prod.mk.injEq,
    and_iff_left rfl, (wild_same s).2]

/-- `a'\` with a line feed and NUL reads as itself; `5%` does not. -/
example : mysqlRest (escape true [97, 39, 92, 10, 0] ++ 39 :: [59]) = some ([97, 39, 92, 10, 0], [59]) :=
  (C119_mysql_same true _ _ (by decide)).mpr (by decide)
example : mysqlRest (escape true [53, 37] ++ 39 :: [59]) = some ([53, 92, 37], [59]) := C119_mysql true _ _ (by decide)

/-- C119, MySQL with GBK.  A byte from 0x81 to 0xFE in front of a quote swallows the backslash that `escape` puts between them, and
the quote ends the literal: what is behind it, escaped, is left as program text. -/
theorem C119_gbk_breakout (sgn : Bool) (l : UInt8) (hl : 0x81 ≤ l ∧ l ≤ 0xFE) (b r : Bytes) (hb : b ≠ []) :
    gbkRest (escape sgn (l :: 39 :: b) ++ 39 :: r) = some ([l, 92], escape sgn b ++ 39 :: r) := by
  have hn : ¬ NeedsEscape l := by
    rintro ⟨h, -⟩
    have := UInt8.le_iff_toNat_le.mp hl.1
    have e : (0x81 : UInt8).toNat = 129 := rfl
    omega
  have h39 : l ≠ 39 := fun e => hn (e ▸ quote_escapes)
  have hend := escB_ends b (39 :: r) hb
  simp only [escape_eq, List.flatMap_cons]
  rw [escB, if_neg hn, escB, if_pos quote_escapes]
  simp only [List.cons_append, List.nil_append]
  rw [gbkRest.eq_def]
  dsimp only
  rw [if_neg h39, if_pos ⟨hl.1, hl.2, by decide, by decide, by decide⟩, gbkRest.eq_def]
  dsimp only
  rw [if_pos rfl]
  generalize hx : b.flatMap escB ++ 39 :: r = x at hend ⊢
  cases x with
  | nil => rfl
  | cons c x =>
    have : c ≠ 39 := fun e => hend (by rw [e]; rfl)
    simp [this, inFront]

/-- 0xBF and a quote. -/
example : gbkRest (escape true [0xBF, 39, 32, 79, 82] ++ 39 :: []) = some ([0xBF, 92], [92, 32, 79, 82, 39]) := by
  have := C119_gbk_breakout true 0xBF (by decide) [32, 79, 82] [] (by decide)
  have e : escape true [32, 79, 82] = [92, 32, 79, 82] := by decide
  simpa [e] using this

/-! ### PostgreSQL -/

theorem pg_close (r : Bytes) (h : Ends r) : pgRest (39 :: r) = some ([], r) := by
  cases r with
  | nil => rfl
  | cons c r =>
    have : c ≠ 39 := fun e => h (by rw [e]; rfl)
    rw [pgRest.eq_def]; simp [this]

theorem pg_needs : ∀ c : UInt8, NeedsEscape c → c ≠ 0 →
    ¬ (c = 0 ∨ (48 ≤ c ∧ c ≤ 55) ∨ c = 120 ∨ c = 117 ∨ c = 85) ∧ c ≠ 98 ∧ c ≠ 102 ∧ c ≠ 110 ∧ c ≠ 114 ∧ c ≠ 116 := by
  apply forall_byte; decide +kernel

theorem pg_plain : ∀ c : UInt8, ¬ NeedsEscape c → c ≠ 39 ∧ c ≠ 92 ∧ c ≠ 0 := by
  apply forall_byte; decide +kernel

theorem pg_escape (s t : Bytes) (h : 0 ∉ s) : pgRest (s.flatMap escB ++ t) = inFront s (pgRest t) := by
  induction s with
  | nil => simp [inFront_nil]
  | cons c s ih =>
    simp only [List.mem_cons, not_or] at h
    rw [List.flatMap_cons, List.append_assoc]
    rcases escB_cases c with ⟨hc, e⟩ | ⟨hc, e⟩ <;> rw [e]
    · obtain ⟨h0, h1, h2, h3, h4, h5⟩ := pg_needs c hc (Ne.symm h.1)
      rw [List.cons_append, List.cons_append, List.nil_append, pgRest.eq_def]
      dsimp only
      rw [if_neg (by decide), if_pos rfl, if_neg h0, if_neg h1, if_neg h2, if_neg h3, if_neg h4, if_neg h5, ih h.2,
        inFront_inFront]; rfl
    · obtain ⟨h1, h2, h3⟩ := pg_plain c hc
      rw [List.cons_append, List.nil_append, pgRest.eq_def]
      dsimp only
      rw [if_neg h1, if_neg h2, if_neg h3, ih h.2, inFront_inFront]; rfl

/-- C119, PostgreSQL.  The `E` literal made of an escaped string reads as that string, and ends where it should, if there is no NUL
in it; with a NUL the literal is refused. -/
theorem C119_postgres (sgn : Bool) (s r : Bytes) (hr : Ends r) :
    pgRest (escape sgn s ++ 39 :: r) = if 0 ∈ s then none else some (s, r) := by
  rw [escape_eq]
  split
  · rename_i h
    obtain ⟨a, b, rfl, ha⟩ : ∃ a b, s = a ++ 0 :: b ∧ 0 ∉ a := by
      clear hr
      induction s with
      | nil => cases h
      | cons c s ih =>
        by_cases hc : c = 0
        · exact ⟨[], s, by rw [hc]; rfl, by simp⟩
        · obtain ⟨a, b, e, hn⟩ := ih (by rcases List.mem_cons.mp h with e | e; exacts [absurd e.symm hc, e])
          exact ⟨c :: a, b, by rw [e]; rfl, by simp [hn, Ne.symm hc]⟩
    rw [List.flatMap_append, List.flatMap_cons, List.append_assoc, pg_escape a _ ha, escB, if_pos (by decide)]
    simp only [List.cons_append, List.nil_append]
    rw [pgRest.eq_def]; rfl
  · rename_i h
    rw [pg_escape s _ h, pg_close r hr, inFront_some, List.append_nil]

example : pgRest (escape true [97, 39, 92, 10, 37] ++ 39 :: [59]) = some ([97, 39, 92, 10, 37], [59]) :=
  (C119_postgres true _ _ (by decide)).trans (if_neg (by decide))

/-! ### JSON texts -/

theorem jsonB_quote : ∀ c : UInt8, 39 ∈ jsonB c → c = 39 := by
  apply forall_byte; decide +kernel

theorem jsonB_39 : jsonB 39 = [39] := by decide

theorem jsonB_flat_no_quote (s : Bytes) (h : 39 ∉ s) : 39 ∉ s.flatMap jsonB := by
  intro hm
  obtain ⟨c, hc, hb⟩ := List.mem_flatMap.mp hm
  exact h (jsonB_quote c hb ▸ hc)

/-- C119, standard SQL.  The literal made of the JSON text of a string reads as that text, and ends where it should, if there is no
quote in the string. -/
theorem C119_json_standard (sgn : Bool) (s t r : Bytes) (hr : Ends r) (h : jsonifyStr sgn s = .ok t) (hq : 39 ∉ s) :
    sqlRest (t ++ 39 :: r) = some (t, r) := by
  rw [jsonifyStr_eq] at h
  cases h
  rw [sql_plain _ _ (by simp [jsonB_flat_no_quote s hq]), sql_close r hr, inFront_some, List.append_nil]

theorem jsonB_ends : ∀ c : UInt8, c ≠ 39 → ∃ d w, jsonB c = d :: w ∧ d ≠ 39 := by
  intro c hc
  obtain ⟨d, w, e⟩ : ∃ d w, jsonB c = d :: w := by
    cases h : jsonB c with
    | nil => have := (jsonB_length c).1; rw [h] at this; simp at this
    | cons d w => exact ⟨d, w, rfl⟩
  exact ⟨d, w, e, fun hd => hc (jsonB_quote c (by rw [e, hd]; simp))⟩

theorem json_ends (b r : Bytes) (h : Ends b) : Ends (b.flatMap jsonB ++ 34 :: r) := by
  cases b with
  | nil => simp [Ends]
  | cons c b =>
    obtain ⟨d, w, e, hd⟩ := jsonB_ends c fun e => h (by rw [e]; rfl)
    rw [List.flatMap_cons, e]
    simpa [Ends] using hd

/-- C119, standard SQL.  A quote in the string, with no other behind it, gets out of the literal: the rest of the JSON text is left as
program text. -/
theorem C119_json_breakout (sgn : Bool) (a b t r : Bytes) (ha : 39 ∉ a) (hb : Ends b)
    (h : jsonifyStr sgn (a ++ 39 :: b) = .ok t) :
    ∃ v w, t = v ++ 39 :: w ∧ v.length < t.length ∧ jsonifyStr sgn a = .ok (v ++ [34]) ∧ jsonifyStr sgn b = .ok (34 :: w) ∧
      sqlRest (t ++ 39 :: r) = some (v, w ++ 39 :: r) := by
  rw [jsonifyStr_eq] at h
  cases h
  refine ⟨34 :: a.flatMap jsonB, b.flatMap jsonB ++ [34], ?_, ?_, ?_, ?_, ?_⟩
  · simp [jsonB_39]
  · simp [jsonB_39]
  · rw [jsonifyStr_eq]; rfl
  · rw [jsonifyStr_eq]
  · have e : 34 :: ((a ++ 39 :: b).flatMap jsonB ++ [34]) ++ 39 :: r =
        (34 :: a.flatMap jsonB) ++ (39 :: (b.flatMap jsonB ++ 34 :: 39 :: r)) := by simp [jsonB_39]
    rw [e, sql_plain _ _ (by simp [jsonB_flat_no_quote a ha]), sql_close _ (json_ends b _ hb), inFront_some, List.append_nil]
    simp

example : ∃ t, jsonifyStr true [97, 34, 10] = .ok t ∧ sqlRest (t ++ 39 :: [59]) = some (t, [59]) :=
  ⟨_, jsonifyStr_eq .., C119_json_standard true _ _ _ (by decide) (jsonifyStr_eq ..) (by decide)⟩
example : ∃ t, jsonifyStr true [97, 39, 59] = .ok t ∧ sqlRest (t ++ 39 :: []) = some ([34, 97], [59, 34, 39]) :=
  ⟨_, rfl, by
    obtain ⟨v, w, -, -, h1, h2, h3⟩ := C119_json_breakout true [97] [59] _ [] (by decide) (by decide) rfl
    have e1 : v ++ [34] = [34, 97] ++ [34] := (Res.ok.inj (h1.symm.trans (by decide : jsonifyStr true [97] = .ok ([34, 97] ++ [34]))))
    have e2 : 34 :: w = 34 :: [59, 34] := (Res.ok.inj (h2.symm.trans (by decide : jsonifyStr true [59] = .ok (34 :: [59, 34]))))
    rw [h3, List.append_cancel_right e1, (List.cons.inj e2).2]; rfl⟩

/-- The value MySQL reads for the JSON text of one byte. -/
theorem mysql_jsonB (c : UInt8) (hc : c ≠ 39) : ∃ v, (∀ t, mysqlRest (jsonB c ++ t) = inFront v (mysqlRest t)) ∧
    v.length ≤ (jsonB c).length ∧ (jsonB c = [c] → v = [c]) ∧ (jsonB c ≠ [c] → v.length < (jsonB c).length) := by
  rcases jsonB_cases c with ⟨e, he, hu, hs⟩ | ⟨h, l, he, hh, -⟩ | ⟨he, h1, h2, h3⟩
  · have hw : (mysqlEscape e).length = 1 := by
      have : ∀ e : UInt8, simpleEscape e ≠ none → (mysqlEscape e).length = 1 := by apply forall_byte; decide +kernel
      exact this e (by rw [hs]; simp)
    refine ⟨mysqlEscape e, fun t => ?_, ?_, fun h => ?_, fun _ => ?_⟩
    · rw [he]; exact mysql_esc e t
    · rw [he, hw]; simp
    · rw [he] at h; simp at h
    · rw [he, hw]; simp
  · have hl : ∀ b ∈ jsonB c, b = 92 ∨ (b ≠ 39 ∧ b ≠ 92) := by
      intro b hb
      by_cases h92 : b = 92
      · exact .inl h92
      · exact .inr ⟨fun e => hc (jsonB_quote c (e ▸ hb)), h92⟩
    have hx : h ≠ 92 ∧ l ≠ 92 := by
      constructor
      · rintro rfl; have : hexVal 92 = none := by decide
        simp [hex4, this] at hh
      · rintro rfl; have : hexVal 92 = none := by decide
        simp [hex4, this] at hh
    have hh39 : h ≠ 39 := fun e => hc (jsonB_quote c (by rw [he, e]; simp))
    have hl39 : l ≠ 39 := fun e => hc (jsonB_quote c (by rw [he, e]; simp))
    refine ⟨[117, 48, 48, h, l], fun t => ?_, ?_, fun h' => ?_, fun _ => ?_⟩
    · rw [he]
      simp only [List.cons_append, List.nil_append]
      rw [mysql_esc, mysql_one 48 _ (by decide) (by decide), mysql_one 48 _ (by decide) (by decide),
        mysql_one h _ hh39 hx.1, mysql_one l _ hl39 hx.2]
      simp only [inFront_inFront]; rfl
    · rw [he]; simp
    · rw [he] at h'; simp at h'
    · rw [he]; simp
  · refine ⟨[c], fun t => ?_, ?_, fun _ => rfl, fun h => absurd he h⟩
    · rw [he]; exact mysql_one c t hc h2
    · rw [he]; simp

theorem mysql_json (s : Bytes) (hq : 39 ∉ s) : ∃ v, (∀ t, mysqlRest (s.flatMap jsonB ++ t) = inFront v (mysqlRest t)) ∧
    v.length ≤ (s.flatMap jsonB).length ∧ ((∀ c ∈ s, jsonB c = [c]) → v = s) ∧
    ((∃ c ∈ s, jsonB c ≠ [c]) → v.length < (s.flatMap jsonB).length) := by
  induction s with
  | nil => exact ⟨[], fun t => by simp [inFront_nil], by simp, fun _ => rfl, by simp⟩
  | cons c s ih =>
    simp only [List.mem_cons, not_or] at hq
    obtain ⟨v, h1, h2, h3, h4⟩ := mysql_jsonB c (Ne.symm hq.1)
    obtain ⟨v', i1, i2, i3, i4⟩ := ih hq.2
    refine ⟨v ++ v', fun t => ?_, ?_, fun h => ?_, fun h => ?_⟩
    · rw [List.flatMap_cons, List.append_assoc, h1, i1, inFront_inFront]
    · rw [List.flatMap_cons, List.length_append, List.length_append]; omega
    · rw [h3 (h c (by simp)), i3 fun b hb => h b (by simp [hb])]; rfl
    · rw [List.flatMap_cons, List.length_append, List.length_append]
      obtain ⟨b, hb, hn⟩ := h
      rcases List.mem_cons.mp hb with rfl | hb
      · have := h4 hn; omega
      · have := i4 ⟨b, hb, hn⟩; omega

theorem jsonB_self : ∀ c : UInt8, jsonB c = [c] ↔ c ≠ 34 ∧ c ≠ 92 ∧ 32 ≤ c := by
  apply forall_byte; decide +kernel

/-- C119, MySQL.  Without a quote in the string, the literal made of its JSON text ends where it should, and reads as that text
exactly if no byte of the string had to be escaped. -/
theorem C119_json_mysql (sgn : Bool) (s t r : Bytes) (hr : Ends r) (h : jsonifyStr sgn s = .ok t) (hq : 39 ∉ s) :
    ∃ v, mysqlRest (t ++ 39 :: r) = some (v, r) ∧ (v = t ↔ ∀ c ∈ s, c ≠ 34 ∧ c ≠ 92 ∧ 32 ≤ c) := by
  rw [jsonifyStr_eq] at h
  cases h
  obtain ⟨v, h1, h2, h3, h4⟩ := mysql_json s hq
  refine ⟨34 :: (v ++ [34]), ?_, ?_⟩
  · rw [List.cons_append, mysql_one 34 _ (by decide) (by decide), List.append_assoc, h1, List.cons_append, List.nil_append,
      mysql_one 34 _ (by decide) (by decide), mysql_close r hr]
    simp [inFront]
  · have hs : (∀ c ∈ s, c ≠ 34 ∧ c ≠ 92 ∧ 32 ≤ c) ↔ ∀ c ∈ s, jsonB c = [c] :=
      ⟨fun h c hc => (jsonB_self c).mpr (h c hc), fun h c hc => (jsonB_self c).mp (h c hc)⟩
    rw [hs]
    constructor
    · intro e
      by_contra hn
      push Not at hn
      have := h4 hn
      rw [List.append_cancel_right (List.cons.inj e).2] at this
      exact Nat.lt_irrefl _ this
    · intro h
      rw [h3 h]
      have : s.flatMap jsonB = s := by
        clear h1 h2 h3 h4 hs hq
        induction s with
        | nil => rfl
        | cons c s ih => rw [List.flatMap_cons, h c (by simp), ih fun b hb => h b (by simp [hb])]; rfl
      rw [this]

example : ∃ t v, jsonifyStr true [97, 98] = .ok t ∧ mysqlRest (t ++ 39 :: [59]) = some (v, [59]) ∧ v = t := by
  obtain ⟨v, h1, h2⟩ := C119_json_mysql true [97, 98] _ [59] (by decide) (jsonifyStr_eq ..) (by decide)
  exact ⟨_, v, jsonifyStr_eq .., h1, h2.mpr (by decide)⟩
example : ∃ t v, jsonifyStr true [97, 10] = .ok t ∧ mysqlRest (t ++ 39 :: [59]) = some (v, [59]) ∧ v ≠ t := by
  obtain ⟨v, h1, h2⟩ := C119_json_mysql true [97, 10] _ [59] (by decide) (jsonifyStr_eq ..) (by decide)
  exact ⟨_, v, jsonifyStr_eq .., h1, fun e => absurd (h2.mp e) (by decide)⟩

end Lexi
