import Verif.Spec.Pattern
import Verif.Props.Sql

/-!
# C120: escaped strings as patterns
-/

namespace Lexi
open Spec

theorem patMatch_lits (s : Bytes) (p : List PatItem) (t : Bytes) :
    patMatch (s.map .lit ++ p) t ↔ ∃ u, t = s ++ u ∧ patMatch p u := by
  induction s generalizing t with
  | nil => simp
  | cons c s ih =>
    simp only [List.map_cons, List.cons_append, patMatch, ih]
    constructor
    · rintro ⟨u, rfl, v, rfl, h⟩; exact ⟨v, rfl, h⟩
    · rintro ⟨v, rfl, h⟩; exact ⟨_, rfl, v, rfl, h⟩

theorem patMatch_literal (s t : Bytes) : patMatch (s.map .lit) t ↔ t = s := by
  have := patMatch_lits s [] t
  rw [List.append_nil] at this
  rw [this]
  simp [patMatch]

theorem not_special : ∀ c : UInt8, ¬ NeedsEscape c → c ≠ 92 ∧ c ≠ 91 ∧ c ≠ 42 ∧ c ≠ 63 ∧ c ≠ 37 ∧ c ≠ 95 := by
  apply forall_byte; decide +kernel

theorem globItems_escape (s : Bytes) : globItems (s.flatMap escB) = some (s.map .lit) := by
  induction s with
  | nil => rfl
  | cons c s ih =>
    rw [List.flatMap_cons]
    rcases escB_cases c with ⟨-, e⟩ | ⟨hc, e⟩ <;> rw [e]
    · rw [List.cons_append, List.cons_append, List.nil_append, globItems.eq_def]
      dsimp only
      rw [if_pos rfl, ih]; rfl
    · obtain ⟨h1, h2, h3, h4, -, -⟩ := not_special c hc
      rw [List.cons_append, List.nil_append, globItems.eq_def]
      dsimp only
      rw [if_neg h1, if_neg h2, if_neg h3, if_neg h4, ih]; rfl

theorem likeItems_esc (my : Bool) (c : UInt8) (t : Bytes) : likeItems my (92 :: c :: t) = (likeItems my t).map (.lit c :: ·) := by
  rw [likeItems.eq_def]; rfl

theorem likeItems_one (my : Bool) (c : UInt8) (t : Bytes) (h1 : c ≠ 92) (h2 : c ≠ 37) (h3 : c ≠ 95) :
    likeItems my (c :: t) = (likeItems my t).map (.lit c :: ·) := by
  rw [likeItems.eq_def]; dsimp only; rw [if_neg h1, if_neg h2, if_neg h3]

theorem likeItems_escape (my : Bool) (s : Bytes) : likeItems my (s.flatMap escB) = some (s.map .lit) := by
  induction s with
  | nil => rfl
  | cons c s ih =>
    rw [List.flatMap_cons]
    rcases escB_cases c with ⟨-, e⟩ | ⟨hc, e⟩ <;> rw [e]
    · rw [List.cons_append, List.cons_append, List.nil_append, likeItems_esc, ih]; rfl
    · obtain ⟨h1, -, -, -, h5, h6⟩ := not_special c hc
      rw [List.cons_append, List.nil_append, likeItems_one my c _ h1 h5 h6, ih]; rfl

/-- C120.  As a pattern of file names, the result of `escape` matches exactly the string. -/
theorem C120_glob (sgn : Bool) (s : Bytes) : GlobMatches (escape sgn s) (· = s) :=
  ⟨_, by rw [escape_eq, globItems_escape], fun t => patMatch_literal s t⟩

/-- C120.  As a pattern of `LIKE`, the result of `escape` matches exactly the string. -/
theorem C120_like (my sgn : Bool) (s : Bytes) : LikeMatches my (escape sgn s) (· = s) :=
  ⟨_, by rw [escape_eq, likeItems_escape], fun t => patMatch_literal s t⟩

/-- `*.[ch]` and `100%_\`, which without `escape` match other texts or are no patterns at all. -/
example : GlobMatches (escape true [42, 46, 91, 99, 104, 93]) (· = [42, 46, 91, 99, 104, 93]) := C120_glob true _
example : globItems [42, 46, 99] = some [.run, .lit 46, .lit 99] := by decide
example : LikeMatches false (escape true [49, 37, 95, 92]) (· = [49, 37, 95, 92]) := C120_like false true _
example : likeItems true [49, 37] = some [.lit 49, .run] := by decide

/-- `LIKE` of a wildcard-marked string without backslashes. -/
theorem likeItems_wild (my : Bool) (s t : Bytes) (h : 92 ∉ s) : likeItems my (s.flatMap wild ++ t) = (likeItems my t).map (s.map .lit ++ ·) := by
  induction s with
  | nil => simp
  | cons c s ih =>
    simp only [List.mem_cons, not_or] at h
    rw [List.flatMap_cons, List.append_assoc]
    by_cases hc : c = 37 ∨ c = 95
    · rw [wild, if_pos hc, List.cons_append, List.cons_append, List.nil_append, likeItems_esc, ih h.2, Option.map_map]; rfl
    · rw [wild, if_neg hc]
      push Not at hc
      rw [List.cons_append, List.nil_append, likeItems_one my c _ (Ne.symm h.1) hc.1 hc.2, ih h.2, Option.map_map]; rfl

/-- C120, MySQL.  `LIKE` with the literal made of the escaped string matches exactly the string, `%` and `_` in it included, if there
is no backslash in it. -/
theorem C120_like_mysql (sgn : Bool) (s r : Bytes) (hr : Ends r) (h : 92 ∉ s) :
    ∃ p, mysqlRest (escape sgn s ++ 39 :: r) = some (p, r) ∧ LikeMatches true p (· = s) := by
  refine ⟨_, C119_mysql sgn s r hr, s.map .lit, ?_, fun t => patMatch_literal s t⟩
  have := likeItems_wild true s [] h
  rw [List.append_nil] at this
  exact this.trans (by simp [likeItems])

/-- C120, MySQL.  A backslash in front of a `%` makes a wildcard of it: `LIKE` matches the string with anything at all in its place. -/
theorem C120_like_mysql_wild (sgn : Bool) (a b r : Bytes) (hr : Ends r) (ha : 92 ∉ a) (hb : 92 ∉ b) :
    ∃ p, mysqlRest (escape sgn (a ++ 92 :: 37 :: b) ++ 39 :: r) = some (p, r) ∧
      LikeMatches true p fun t => ∃ x, t = a ++ 92 :: (x ++ b) := by
  refine ⟨_, C119_mysql sgn _ r hr, a.map .lit ++ (.lit 92 :: .run :: b.map .lit), ?_, fun t => ?_⟩
  · have e : ((a ++ 92 :: 37 :: b).flatMap wild) = a.flatMap wild ++ (92 :: 92 :: 37 :: b.flatMap wild) := by
      simp [wild]
    have h := likeItems_wild true b [] hb
    rw [List.append_nil] at h
    have h37 : ∀ t, likeItems true (37 :: t) = (likeItems true t).map (.run :: ·) := fun t => by rw [likeItems.eq_def]; rfl
    change likeItems true ((a ++ 92 :: 37 :: b).flatMap wild) = _
    rw [e, likeItems_wild true a _ ha, likeItems_esc, h37, h]
    simp [likeItems]
  · rw [patMatch_lits]
    simp only [patMatch]
    constructor
    · rintro ⟨u, rfl, v, rfl, x, w, rfl, hw⟩
      exact ⟨x, by rw [(patMatch_literal b w).mp hw]⟩
    · rintro ⟨x, rfl⟩
      exact ⟨_, rfl, _, rfl, x, b, rfl, (patMatch_literal b b).mpr rfl⟩

/-- C120, MySQL.  A backslash in front of any other byte is lost: `LIKE` matches the string without it, and not the string. -/
theorem C120_like_mysql_lost (sgn : Bool) (a b r : Bytes) (c : UInt8) (hr : Ends r) (ha : 92 ∉ a) (hb : 92 ∉ b)
    (hc : c ≠ 37 ∧ c ≠ 95) :
    ∃ p, mysqlRest (escape sgn (a ++ 92 :: c :: b) ++ 39 :: r) = some (p, r) ∧ LikeMatches true p (· = a ++ c :: b) := by
  refine ⟨_, C119_mysql sgn _ r hr, (a ++ c :: b).map .lit, ?_, fun t => patMatch_literal _ t⟩
  have e : ((a ++ 92 :: c :: b).flatMap wild) = a.flatMap wild ++ (92 :: c :: b.flatMap wild) := by
    simp [wild, hc.1, hc.2]
  have h := likeItems_wild true b [] hb
  rw [List.append_nil] at h
  change likeItems true ((a ++ 92 :: c :: b).flatMap wild) = _
  rw [e, likeItems_wild true a _ ha, likeItems_esc, h]
  simp [likeItems]

/-- C120, MySQL.  To escape twice is no way out: a `%` then is a wildcard behind a backslash. -/
theorem C120_like_mysql_twice (sgn : Bool) (r : Bytes) (hr : Ends r) :
    ∃ p, mysqlRest (escape sgn (escape sgn [37]) ++ 39 :: r) = some (p, r) ∧
      LikeMatches true p fun t => ∃ x, t = 92 :: x := by
  have e : escape sgn [37] = [] ++ 92 :: 37 :: [] := by rw [escape_eq]; decide
  obtain ⟨p, h1, is, h2, h3⟩ := C120_like_mysql_wild sgn [] [] r hr (by simp) (by simp)
  refine ⟨p, by rw [e]; exact h1, is, h2, fun t => (h3 t).trans ?_⟩
  simp

/-- `5%_` matches itself alone; `a\%` matches `a\` with anything behind; `C:\x` matches `C:x`. -/
example : ∃ p, mysqlRest (escape true [53, 37, 95] ++ 39 :: [59]) = some (p, [59]) ∧ LikeMatches true p (· = [53, 37, 95]) :=
  C120_like_mysql true _ _ (by decide) (by decide)
example : ∃ p, mysqlRest (escape true [97, 92, 37] ++ 39 :: [59]) = some (p, [59]) ∧
    LikeMatches true p fun t => ∃ x, t = [97] ++ 92 :: (x ++ []) :=
  C120_like_mysql_wild true [97] [] [59] (by decide) (by decide) (by decide)
example : ∃ p, mysqlRest (escape true [67, 58, 92, 120] ++ 39 :: [59]) = some (p, [59]) ∧ LikeMatches true p (· = [67, 58, 120]) :=
  C120_like_mysql_lost true [67, 58] [] [59] 120 (by decide) (by decide) (by decide) (by decide)

/-- How MySQL's `LIKE` takes a string that was escaped and put into a literal. -/
def mysqlItems : Bytes → Option (List PatItem)
  | [] => some []
  | b :: t =>
    if b = 92 then
      match t with
      | [] => some [.lit 92]
      | c :: t =>
        if c = 37 then (mysqlItems t).map (.lit 92 :: .run :: ·)
        else if c = 95 then (mysqlItems t).map (.lit 92 :: .one :: ·)
        else (mysqlItems t).map (.lit c :: ·)
    else (mysqlItems t).map (.lit b :: ·)

theorem likeItems_mysql (s : Bytes) : likeItems true (s.flatMap wild) = mysqlItems s := by
  induction s using mysqlItems.induct with
  | case1 => rfl
  | case2 => rfl
  | case3 t ih =>
    have e : (92 :: 37 :: t).flatMap wild = 92 :: 92 :: 37 :: t.flatMap wild := by simp [wild]
    have h37 : ∀ t, likeItems true (37 :: t) = (likeItems true t).map (.run :: ·) := fun t => by rw [likeItems.eq_def]; rfl
    rw [e, likeItems_esc, h37, ih, mysqlItems.eq_def (92 :: 37 :: t)]
    simp [Function.comp_def]
  | case4 t _ ih =>
    have e : (92 :: 95 :: t).flatMap wild = 92 :: 92 :: 95 :: t.flatMap wild := by simp [wild]
    have h95 : ∀ t, likeItems true (95 :: t) = (likeItems true t).map (.one :: ·) := fun t => by rw [likeItems.eq_def]; rfl
    rw [e, likeItems_esc, h95, ih, mysqlItems.eq_def (92 :: 95 :: t)]
    simp [Function.comp_def]
  | case5 c t h1 h2 ih =>
    have e : (92 :: c :: t).flatMap wild = 92 :: c :: t.flatMap wild := by simp [wild, h1, h2]
    rw [e, likeItems_esc, ih, mysqlItems.eq_def (92 :: c :: t)]
    simp [h1, h2]
  | case6 b t hb ih =>
    have h := likeItems_wild true [b] (t.flatMap wild) (by simp [Ne.symm hb])
    have e : (b :: t).flatMap wild = [b].flatMap wild ++ t.flatMap wild := by simp
    rw [e, h, ih, mysqlItems.eq_def (b :: t)]
    simp [hb]

/-- Only literal items match exactly one text. -/
theorem patMatch_single (is : List PatItem) (s : Bytes) (h : ∀ t, patMatch is t ↔ t = s) : is = s.map .lit := by
  induction is generalizing s with
  | nil =>
    have := (h []).mp rfl
    subst this; rfl
  | cons i p ih =>
    have hs := (h s).mpr rfl
    cases i with
    | lit b =>
      obtain ⟨u, rfl, hu⟩ := hs
      have := ih u fun t => by
        have := h (b :: t)
        simpa [patMatch] using this
      rw [this]; rfl
    | one =>
      obtain ⟨c, u, rfl, hu⟩ := hs
      have := (h ((c + 1) :: u)).mp ⟨_, _, rfl, hu⟩
      have := (List.cons.inj this).1
      have := congrArg UInt8.toNat this
      rw [UInt8.toNat_add] at this
      have e : (1 : UInt8).toNat = 1 := rfl
      have := c.toNat_lt
      omega
    | run =>
      obtain ⟨x, u, rfl, hu⟩ := hs
      have := (h (0 :: (x ++ u))).mp ⟨0 :: x, u, rfl, hu⟩
      have := congrArg List.length this
      simp at this

theorem mysqlItems_length (s : Bytes) : ∀ u : Bytes, mysqlItems s = some (u.map .lit) →
    u.length ≤ s.length ∧ (92 ∈ s.dropLast → u.length < s.length) := by
  induction s using mysqlItems.induct with
  | case1 => intro u h; simp [mysqlItems] at h; simp [h]
  | case2 =>
    intro u h
    have := congrArg (Option.map List.length) h
    simp [mysqlItems] at this
    simp [← this]
  | case3 t ih =>
    intro u h
    rw [mysqlItems.eq_def] at h
    simp at h
    obtain ⟨a, -, h⟩ := h
    rcases u with _ | ⟨x, _ | ⟨y, u⟩⟩ <;> simp at h
  | case4 t _ ih =>
    intro u h
    rw [mysqlItems.eq_def] at h
    simp at h
    obtain ⟨a, -, h⟩ := h
    rcases u with _ | ⟨x, _ | ⟨y, u⟩⟩ <;> simp at h
  | case5 c t h1 h2 ih =>
    intro u h
    rw [mysqlItems.eq_def] at h
    simp [h1, h2] at h
    obtain ⟨a, ha, h⟩ := h
    rcases u with _ | ⟨x, u⟩ <;> simp at h
    have := (ih u (by rw [ha, h.2])).1
    simp only [List.length_cons]
    exact ⟨by omega, fun _ => by omega⟩
  | case6 b t hb ih =>
    intro u h
    rw [mysqlItems.eq_def] at h
    simp [hb] at h
    obtain ⟨a, ha, h⟩ := h
    rcases u with _ | ⟨x, u⟩ <;> simp at h
    have := ih u (by rw [ha, h.2])
    simp only [List.length_cons]
    refine ⟨by omega, fun hm => ?_⟩
    cases t with
    | nil => simp at hm
    | cons c t =>
      rw [List.dropLast_cons_cons] at hm
      rcases List.mem_cons.mp hm with e | e
      · exact absurd e.symm hb
      · have := this.2 e; omega

theorem mysqlItems_plain (s : Bytes) (h : 92 ∉ s.dropLast) : mysqlItems s = some (s.map .lit) := by
  induction s with
  | nil => rfl
  | cons b t ih =>
    cases t with
    | nil =>
      rw [mysqlItems.eq_def]
      dsimp only
      split
      · rename_i hb; rw [hb]; rfl
      · rfl
    | cons c t =>
      rw [List.dropLast_cons_cons, List.mem_cons, not_or] at h
      rw [mysqlItems.eq_def]
      dsimp only
      rw [if_neg (Ne.symm h.1), ih h.2]; rfl

/-- C120, MySQL.  In general: `LIKE` with the literal made of the escaped string matches exactly the string if and only if there is no
backslash in it, or one at its end only. -/
theorem C120_like_mysql_exact (sgn : Bool) (s r : Bytes) (hr : Ends r) :
    (∃ p, mysqlRest (escape sgn s ++ 39 :: r) = some (p, r) ∧ LikeMatches true p (· = s)) ↔ 92 ∉ s.dropLast := by
  constructor
  · rintro ⟨p, h1, is, h2, h3⟩ hm
    rw [C119_mysql sgn s r hr] at h1
    have hp : s.flatMap wild = p := (Prod.mk.inj (Option.some.inj h1)).1
    rw [← hp, likeItems_mysql, patMatch_single is s h3] at h2
    exact Nat.lt_irrefl _ ((mysqlItems_length s s h2).2 hm)
  · intro h
    refine ⟨_, C119_mysql sgn s r hr, s.map .lit, ?_, fun t => patMatch_literal s t⟩
    exact (likeItems_mysql s).trans (mysqlItems_plain s h)

/-- `C:\` and `C:\\`. -/
example : ∃ p, mysqlRest (escape true [67, 58, 92] ++ 39 :: [59]) = some (p, [59]) ∧ LikeMatches true p (· = [67, 58, 92]) :=
  (C120_like_mysql_exact true _ _ (by decide)).mpr (by decide)
example : ¬ ∃ p, mysqlRest (escape true [67, 58, 92, 92] ++ 39 :: [59]) = some (p, [59]) ∧
    LikeMatches true p (· = [67, 58, 92, 92]) :=
  fun h => absurd ((C120_like_mysql_exact true _ _ (by decide)).mp h) (by decide)

/-- C120, PostgreSQL.  An `E` literal takes the backslashes of `escape` away, so `LIKE` with the literal made of the string escaped
twice matches exactly the string, if there is no NUL in it. -/
theorem C120_like_postgres (sgn : Bool) (s r : Bytes) (hr : Ends r) (h : 0 ∉ s) :
    ∃ p, pgRest (escape sgn (escape sgn s) ++ 39 :: r) = some (p, r) ∧ LikeMatches false p (· = s) := by
  refine ⟨escape sgn s, ?_, C120_like false sgn s⟩
  rw [C119_postgres sgn _ r hr, if_neg]
  rw [escape_eq]
  intro hm
  obtain ⟨c, hc, hb⟩ := List.mem_flatMap.mp hm
  rcases escB_cases c with ⟨-, e⟩ | ⟨-, e⟩ <;> rw [e] at hb <;> simp at hb <;> exact h (hb ▸ hc)

example : ∃ p, pgRest (escape true (escape true [53, 37, 92, 39]) ++ 39 :: [59]) = some (p, [59]) ∧
    LikeMatches false p (· = [53, 37, 92, 39]) :=
  C120_like_postgres true _ _ (by decide) (by decide)

end Lexi
