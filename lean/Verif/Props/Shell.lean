import Verif.Spec.Shell
import Verif.Props.Json

/-!
# `escape` as read by a shell and by a regular expression engine: C94
-/

namespace Lexi
open Spec Soft Dtoa

/-! ### The shell -/

/-- The word that `escape s` adds to: newlines are lost, and a text of newlines adds no word. -/
def shFeed (cur : Option Bytes) (s : Bytes) : Option Bytes :=
  if s.filter (· ≠ 10) = [] then cur else some (cur.getD [] ++ s.filter (· ≠ 10))

theorem shFeed_cons (cur : Option Bytes) (c : UInt8) (s : Bytes) :
    shFeed cur (c :: s) = if c = 10 then shFeed cur s else shFeed (some (cur.getD [] ++ [c])) s := by
  unfold shFeed
  by_cases hc : c = 10
  · rw [if_pos hc, List.filter_cons_of_neg (by simp [hc])]
  · rw [if_neg hc, List.filter_cons_of_pos (by simp [hc]), if_neg (by simp)]
    split
    · rename_i h; rw [h]
    · simp

theorem plain_byte (c : UInt8) : ¬ NeedsEscape c → c ≠ 92 ∧ c ≠ 32 ∧ c ≠ 9 ∧ c ∉ shSpecial ∧ c ≠ 46 ∧ c ∉ rxSpecial ∧ c ≠ 10 := by
  revert c; apply forall_byte; decide +kernel

theorem escaped_byte (c : UInt8) : NeedsEscape c → ¬ IsAlnum c := fun h => h.2.1

theorem escB_pos {c : UInt8} (h : NeedsEscape c) : escB c = [92, c] := if_pos h
theorem escB_neg {c : UInt8} (h : ¬ NeedsEscape c) : escB c = [c] := if_neg h

theorem shWords_esc (cur : Option Bytes) (c : UInt8) (t : Bytes) : shWords cur (92 :: c :: t) =
    if c = 10 then shWords cur t else if c = 0 then none else shWords (some (cur.getD [] ++ [c])) t := by
  rw [shWords.eq_def]; simp

theorem shWords_plain (cur : Option Bytes) (b : UInt8) (t : Bytes) (h : b ≠ 92) : shWords cur (b :: t) =
    if b = 32 ∨ b = 9 then (shWords none t).map (cur.toList ++ ·)
    else if b ∈ shSpecial then none else shWords (some (cur.getD [] ++ [b])) t := by
  rw [shWords.eq_def]; simp [h]

theorem shWords_escape (s : Bytes) (h0 : 0 ∉ s) (cur : Option Bytes) (r : Bytes) :
    shWords cur (s.flatMap escB ++ r) = shWords (shFeed cur s) r := by
  induction s generalizing cur with
  | nil => simp [shFeed]
  | cons c s ih =>
    have hc0 : c ≠ 0 := fun h => h0 (by simp [h])
    have h0' : 0 ∉ s := fun h => h0 (by simp [h])
    rw [List.flatMap_cons, List.append_assoc, shFeed_cons]
    by_cases hn : NeedsEscape c
    · rw [escB_pos hn]
      simp only [List.cons_append, List.nil_append]
      rw [shWords_esc]
      by_cases h10 : c = 10
      · rw [if_pos h10, if_pos h10, ih h0']
      · rw [if_neg h10, if_neg hc0, if_neg h10, ih h0']
    · rw [escB_neg hn]
      obtain ⟨h1, h2, h3, h4, -, -, h7⟩ := plain_byte c hn
      simp only [List.cons_append, List.nil_append]
      rw [shWords_plain _ _ _ h1, if_neg (by tauto), if_neg h4, if_neg h7, ih h0']

theorem shWords_nul (s : Bytes) (h0 : 0 ∈ s) (cur : Option Bytes) (r : Bytes) :
    shWords cur (s.flatMap escB ++ r) = none := by
  induction s generalizing cur with
  | nil => cases h0
  | cons c s ih =>
    rw [List.flatMap_cons, List.append_assoc]
    by_cases hc0 : c = 0
    · subst hc0
      rw [escB_pos (by decide)]
      simp only [List.cons_append, List.nil_append]
      rw [shWords_esc]
      rfl
    have h0' : 0 ∈ s := by
      rcases List.mem_cons.mp h0 with h | h
      · exact absurd h.symm hc0
      · exact h
    by_cases hn : NeedsEscape c
    · rw [escB_pos hn]
      simp only [List.cons_append, List.nil_append]
      rw [shWords_esc]
      by_cases h10 : c = 10
      · rw [if_pos h10, ih h0']
      · rw [if_neg h10, if_neg hc0, ih h0']
    · rw [escB_neg hn]
      obtain ⟨h1, h2, h3, h4, -, -, -⟩ := plain_byte c hn
      simp only [List.cons_append, List.nil_append]
      rw [shWords_plain _ _ _ h1, if_neg (by tauto), if_neg h4, ih h0']

/-- C94, shell.  What a POSIX shell makes of `escape(s)`: `s` without its newlines; no word at all if that is
empty, and no command line if `s` has a NUL. -/
theorem C94_shell (sgn : Bool) (s : Bytes) :
    shellWords (escapeStr sgn s) =
      if 0 ∈ s then none else if s.filter (· ≠ 10) = [] then some [] else some [s.filter (· ≠ 10)] := by
  rw [escapeStr, escape_eq, shellWords, ← List.append_nil (s.flatMap escB)]
  by_cases h0 : 0 ∈ s
  · rw [if_pos h0, shWords_nul s h0]
  · rw [if_neg h0, shWords_escape s h0, shFeed]
    split
    · rfl
    · simp [shWords]

/-- The arguments the shell hands over unchanged. -/
def ShellSafe (s : Bytes) : Prop := s ≠ [] ∧ 0 ∉ s ∧ 10 ∉ s

instance (s : Bytes) : Decidable (ShellSafe s) := inferInstanceAs (Decidable (_ ∧ _))

/-- A command line of escaped arguments. -/
def commandLine (sgn : Bool) : List Bytes → Bytes
  | [] => []
  | [a] => escapeStr sgn a
  | a :: as => escapeStr sgn a ++ 32 :: commandLine sgn as

theorem words_cons (sgn : Bool) (a : Bytes) (as : List Bytes) :
    shellWords (commandLine sgn (a :: as)) =
      (shellWords (escapeStr sgn a)).bind fun x => (shellWords (commandLine sgn as)).map (x ++ ·) := by
  cases as with
  | nil =>
    rw [show shellWords (commandLine sgn []) = some [] from rfl]
    change shellWords (escapeStr sgn a) = _
    cases shellWords (escapeStr sgn a) <;> simp
  | cons b bs =>
    change shellWords (escapeStr sgn a ++ 32 :: commandLine sgn (b :: bs)) = _
    rw [C94_shell, escapeStr, escape_eq]
    generalize commandLine sgn (b :: bs) = t
    unfold shellWords
    by_cases h0 : 0 ∈ a
    · rw [shWords_nul a h0, if_pos h0]; rfl
    · rw [shWords_escape a h0, if_neg h0, shWords_plain _ _ _ (by decide), if_pos (by decide), shFeed]
      split
      · cases shWords none t <;> simp
      · cases shWords none t <;> simp

/-- C94, command lines.  Arguments escaped and joined with blanks come back exactly if none of them is empty or
has a newline or NUL.  Whatever they contain, no argument ever becomes two, and nothing but words is read. -/
theorem C94_command_line (sgn : Bool) (as : List Bytes) :
    (shellWords (commandLine sgn as) = some as ↔ ∀ a ∈ as, ShellSafe a) ∧
    (∀ ws, shellWords (commandLine sgn as) = some ws →
      ws = (as.map (fun a => a.filter (· ≠ 10))).filter (· ≠ [])) := by
  have key : ∀ as : List Bytes, shellWords (commandLine sgn as) =
      if ∃ a ∈ as, 0 ∈ a then none else some ((as.map (fun a => a.filter (· ≠ 10))).filter (· ≠ [])) := by
    intro as
    induction as with
    | nil => rfl
    | cons a as ih =>
      rw [words_cons, ih, C94_shell]
      by_cases h0 : 0 ∈ a
      · have h1 : ∃ b ∈ a :: as, 0 ∈ b := ⟨a, by simp, h0⟩
        simp only [h0, h1, if_true, Option.bind_none]
      · by_cases h1 : ∃ b ∈ as, 0 ∈ b
        · have h2 : ∃ b ∈ a :: as, 0 ∈ b := by obtain ⟨b, hb, h⟩ := h1; exact ⟨b, by simp [hb], h⟩
          simp only [h1, h2, if_true, Option.map_none]
          cases (if 0 ∈ a then none else if a.filter (· ≠ 10) = [] then some [] else some [a.filter (· ≠ 10)] :
            Option (List Bytes)) <;> rfl
        · have h2 : ¬ ∃ b ∈ a :: as, 0 ∈ b := by
            rintro ⟨b, hb, h⟩
            rcases List.mem_cons.mp hb with rfl | hb
            · exact h0 h
            · exact h1 ⟨b, hb, h⟩
          simp only [h0, h1, h2, if_false, List.map_cons, Option.map_some]
          by_cases he : a.filter (· ≠ 10) = []
          · rw [if_pos he, he, List.filter_cons_of_neg (by simp)]; rfl
          · rw [if_neg he, List.filter_cons_of_pos (by simpa using he)]; rfl
  refine ⟨?_, fun ws h => ?_⟩
  · rw [key]
    constructor
    · intro h
      split at h
      · cases h
      · rename_i hn
        have h := Option.some.inj h
        clear key
        have hlen : ∀ as : List Bytes, ((as.map (fun a => a.filter (· ≠ 10))).filter (· ≠ [])).length ≤ as.length := by
          intro as
          refine le_trans (List.length_filter_le _ _) ?_
          rw [List.length_map]
        have go : ∀ as : List Bytes, (as.map (fun a => a.filter (· ≠ 10))).filter (· ≠ []) = as →
            ∀ a ∈ as, a ≠ [] ∧ 10 ∉ a := by
          intro as
          induction as with
          | nil => intro _ a ha; cases ha
          | cons b bs ih =>
            intro h a ha
            rw [List.map_cons] at h
            by_cases hb : b.filter (· ≠ 10) = []
            · rw [hb, List.filter_cons_of_neg (by simp)] at h
              have := hlen bs
              rw [h] at this
              simp at this
            · rw [List.filter_cons_of_pos (by simpa using hb)] at h
              obtain ⟨h1, h2⟩ := List.cons.inj h
              rcases List.mem_cons.mp ha with rfl | ha
              · refine ⟨fun he => hb (by rw [he]; rfl), fun h10 => ?_⟩
                rw [← h1, List.mem_filter] at h10
                simp at h10
              · exact ih h2 a ha
        intro a ha
        obtain ⟨h1, h2⟩ := go as h a ha
        exact ⟨h1, fun h0 => hn ⟨a, ha, h0⟩, h2⟩
    · intro h
      rw [if_neg (by rintro ⟨a, ha, h0⟩; exact (h a ha).2.1 h0)]
      have e : as.map (fun a => a.filter (· ≠ 10)) = as := by
        conv_rhs => rw [← List.map_id as]
        apply List.map_congr_left
        intro a ha
        rw [List.filter_eq_self.mpr]
        · rfl
        · intro b hb
          have := (h a ha).2.2
          simp only [ne_eq, decide_eq_true_eq]
          rintro rfl
          exact this hb
      rw [e, List.filter_eq_self.mpr]
      intro a ha
      simpa using (h a ha).1
  · rw [key] at h
    split at h
    · cases h
    · exact (Option.some.inj h).symm

/-- C94 is about real texts: a hostile argument stays one word. -/
example : ShellSafe (ascii "x; rm -rf $HOME `id` 'a' \"b\" *") := by decide +kernel
example : shellWords (ascii "echo x\\;\\ rm") = some [ascii "echo", ascii "x; rm"] := by decide +kernel
example : shellWords (ascii "echo x; rm") = none := by decide +kernel

/-! ### Regular expressions -/

theorem rx_esc (c : UInt8) (t : Bytes) :
    rxItems (92 :: c :: t) = if IsAlnum c then none else (rxItems t).map (.lit c :: ·) := by
  rw [rxItems.eq_def]; simp

/-- An unescaped byte. -/
def rxByte (b : UInt8) : Option RxItem :=
  if b = 46 then some .dot else if b ∈ rxSpecial then none else some (.lit b)

theorem rx_plain (b : UInt8) (t : Bytes) (h : b ≠ 92) :
    rxItems (b :: t) = (rxByte b).bind fun x => (rxItems t).map (x :: ·) := by
  rw [rxItems.eq_def, rxByte]
  simp only [h, if_false]
  split
  · rfl
  · split <;> rfl

theorem rxItems_escape (s r : Bytes) :
    rxItems (s.flatMap escB ++ r) = (rxItems r).map (s.map RxItem.lit ++ ·) := by
  induction s with
  | nil => cases h : rxItems r <;> simp [h]
  | cons c s ih =>
    rw [List.flatMap_cons, List.append_assoc]
    by_cases hn : NeedsEscape c
    · rw [escB_pos hn]
      simp only [List.cons_append, List.nil_append]
      rw [rx_esc, if_neg (escaped_byte c hn), ih]
      cases rxItems r <;> simp
    · rw [escB_neg hn]
      obtain ⟨h1, -, -, -, h5, h6, -⟩ := plain_byte c hn
      simp only [List.cons_append, List.nil_append]
      rw [rx_plain _ _ h1, rxByte, if_neg h5, if_neg h6, ih]
      cases rxItems r <;> simp

theorem rxItems_append : ∀ (p q : Bytes) (a : List RxItem), rxItems p = some a →
    rxItems (p ++ q) = (rxItems q).map (a ++ ·)
  | [], q, a, h => by
    have h : some [] = some a := h
    rw [← Option.some.inj h]
    cases hq : rxItems q <;> simp [hq]
  | b :: p, q, a, h => by
    by_cases h92 : b = 92
    · subst h92
      cases p with
      | nil => cases h
      | cons c p =>
        rw [rx_esc] at h
        rw [List.cons_append, List.cons_append, rx_esc]
        by_cases hc : IsAlnum c
        · rw [if_pos hc] at h; cases h
        · rw [if_neg hc] at h ⊢
          obtain ⟨x, hx, rfl⟩ := Option.map_eq_some_iff.mp h
          rw [rxItems_append p q x hx]
          cases rxItems q <;> simp
    · rw [rx_plain _ _ h92] at h
      rw [List.cons_append, rx_plain _ _ h92]
      obtain ⟨i, hi, h⟩ := Option.bind_eq_some_iff.mp h
      obtain ⟨x, hx, rfl⟩ := Option.map_eq_some_iff.mp h
      rw [hi, rxItems_append p q x hx]
      cases rxItems q <;> simp

theorem matches_lits (s t : Bytes) : RxMatches (s.map .lit) t ↔ t = s := by
  induction s generalizing t with
  | nil => cases t <;> simp [RxMatches]
  | cons c s ih =>
    cases t with
    | nil => simp [RxMatches]
    | cons b t => simp [RxMatches, RxItem.Matches, ih]

/-- C94, regular expressions.  `escape(s)`, alone or inside an expression, stands for `s` literally: it matches `s`
and nothing else, for every byte string. -/
theorem C94_regex (sgn : Bool) (s : Bytes) :
    (∀ (p q : Bytes) (a b : List RxItem), rxItems p = some a → rxItems q = some b →
      rxItems (p ++ escapeStr sgn s ++ q) = some (a ++ s.map .lit ++ b)) ∧
    ∃ r, rxItems (escapeStr sgn s) = some r ∧ ∀ t, RxMatches r t ↔ t = s := by
  rw [escapeStr, escape_eq]
  constructor
  · intro p q a b hp hq
    rw [List.append_assoc, rxItems_append p _ a hp, rxItems_escape, hq]
    simp
  · refine ⟨s.map .lit, ?_, matches_lits s⟩
    have := rxItems_escape s []
    rw [List.append_nil] at this
    rw [this]
    simp [rxItems]

example : rxItems (ascii "1.5") = some [.lit 49, .dot, .lit 53] ∧ rxItems (ascii "a*b") = none ∧ rxItems (ascii "\\d") = none := by
  decide +kernel

/-! ### Arguments that are no text -/

/-- The bytes of numbers and words. -/
def ScalarByte (b : UInt8) : Prop := IsAlnum b ∨ b = 45 ∨ b = 46

instance (b : UInt8) : Decidable (ScalarByte b) := inferInstanceAs (Decidable (_ ∨ _))

theorem scalar_plain (b : UInt8) : ScalarByte b →
    b ≠ 92 ∧ b ≠ 32 ∧ b ≠ 9 ∧ b ∉ shSpecial ∧ b ∉ rxSpecial := by
  revert b; apply forall_byte; decide +kernel

theorem digit_scalar (b : UInt8) : IsDigit b → ScalarByte b := by
  revert b; apply forall_byte; decide +kernel

theorem decimal_scalar (n : ℤ) : ∀ b ∈ decimalText n, ScalarByte b ∧ b ≠ 46 := by
  have hd : ∀ k : ℕ, ∀ b ∈ decN k, ScalarByte b ∧ b ≠ 46 := fun k b hb => by
    have := decN_digits k b hb
    exact ⟨digit_scalar b this, by rintro rfl; exact absurd this (by decide)⟩
  by_cases h : n < 0
  · rw [decimalText_neg n h]
    intro b hb
    rcases List.mem_cons.mp hb with rfl | hb
    · decide
    · exact hd _ b hb
  · rw [decimalText_nonneg n (not_lt.mp h)]
    exact hd _

theorem pretty_scalar (D : ℕ) (k : ℤ) : ∀ b ∈ prettyText (decN D) k, ScalarByte b := by
  have hd : ∀ b ∈ decN D, ScalarByte b := fun b hb => digit_scalar b (decN_digits D b hb)
  have he : ∀ e b, b ∈ decimalText e → ScalarByte b := fun e b hb => (decimal_scalar e b hb).1
  have hr : ∀ n b, b ∈ List.replicate n (48 : UInt8) → ScalarByte b := fun n b hb => by
    rw [List.eq_of_mem_replicate hb]; decide
  have h46 : ScalarByte 46 := by decide
  have h48 : ScalarByte 48 := by decide
  have h101 : ScalarByte 101 := by decide
  intro b hb
  unfold prettyText at hb
  dsimp only at hb
  split at hb
  · simp only [List.mem_append, List.mem_cons, List.not_mem_nil, or_false] at hb
    rcases hb with (h | h) | rfl | rfl
    exacts [hd b h, hr _ b h, h46, h48]
  split at hb
  · simp only [List.mem_append, List.mem_cons] at hb
    rcases hb with h | rfl | h
    exacts [hd b (List.mem_of_mem_take h), h46, hd b (List.mem_of_mem_drop h)]
  split at hb
  · simp only [List.mem_append, List.mem_cons] at hb
    rcases hb with rfl | rfl | h | h
    exacts [h48, h46, hr _ b h, hd b h]
  split at hb
  · simp only [List.mem_append, List.mem_cons] at hb
    rcases hb with h | rfl | h
    exacts [hd b h, h101, he _ b h]
  · simp only [List.mem_append, List.mem_cons] at hb
    rcases hb with h | rfl | h | rfl | h
    exacts [hd b (List.mem_of_mem_take h), h46, hd b (List.mem_of_mem_drop h), h101, he _ b h]

theorem double_scalar (env : Env) (henv : EnvOk env) (u : UInt64) (hu : DFinite u) (L : Literals) (junk : Bytes)
    (hj : junk.length = FLOAT_SIZE) :
    ∃ t, stringDouble L env junk u = .ok t ∧ t ≠ [] ∧ ∀ b ∈ t, ScalarByte b := by
  by_cases hz : DZero u
  · exact ⟨_, stringDouble_zero env u hz L junk hj, by decide, by decide⟩
  · obtain ⟨n, hwf, -, -, -, -, -, -, htext⟩ := text_spec env henv u hu
    obtain ⟨D, k, -, h⟩ := stringDouble_finite env henv u hu hz
    have h := h u rfl L junk hj
    refine ⟨_, h, ?_, ?_⟩
    · have h2 := htext L junk hj
      rw [h] at h2
      rw [Res.ok.inj h2, text_eq]
      simp [hwf.int_ne]
    · intro b hb
      unfold signed at hb
      rcases List.mem_append.mp hb with h | h
      · split at h
        · rw [List.mem_singleton.mp h]; decide
        · cases h
      · exact pretty_scalar D k b h

theorem words_scalar (s : Bytes) (hs : ∀ b ∈ s, ScalarByte b) (w : Bytes) :
    shWords (some w) s = some [w ++ s] := by
  induction s generalizing w with
  | nil => simp [shWords]
  | cons b s ih =>
    obtain ⟨h1, h2, h3, h4, -⟩ := scalar_plain b (hs b (by simp))
    rw [shWords_plain _ _ _ h1, if_neg (by tauto), if_neg h4, ih fun b hb => hs b (by simp [hb])]
    simp

theorem shell_scalar (s : Bytes) (hs : ∀ b ∈ s, ScalarByte b) (hne : s ≠ []) : shellWords s = some [s] := by
  cases s with
  | nil => exact absurd rfl hne
  | cons b s =>
    obtain ⟨h1, h2, h3, h4, -⟩ := scalar_plain b (hs b (by simp))
    rw [shellWords, shWords_plain _ _ _ h1, if_neg (by tauto), if_neg h4, words_scalar s fun b hb => hs b (by simp [hb])]
    rfl

/-- What an unescaped text of these bytes matches: the text, with anything but a newline in place of each `.`. -/
def DotMatches : Bytes → Bytes → Prop
  | [], [] => True
  | b :: s, c :: t => (if b = 46 then c ≠ 10 else c = b) ∧ DotMatches s t
  | _, _ => False

theorem rx_scalar (s : Bytes) (hs : ∀ b ∈ s, ScalarByte b) :
    ∃ r, rxItems s = some r ∧ ∀ t, RxMatches r t ↔ DotMatches s t := by
  induction s with
  | nil => exact ⟨[], rfl, fun t => by cases t <;> exact Iff.rfl⟩
  | cons b s ih =>
    obtain ⟨r, hr, h⟩ := ih fun b hb => hs b (by simp [hb])
    obtain ⟨h1, -, -, -, h5⟩ := scalar_plain b (hs b (by simp))
    by_cases h46 : b = 46
    · refine ⟨.dot :: r, ?_, fun t => ?_⟩
      · rw [rx_plain _ _ h1, rxByte, if_pos h46, hr]; rfl
      · cases t with
        | nil => exact Iff.rfl
        | cons c t => rw [RxMatches, DotMatches, h, if_pos h46, RxItem.Matches]
    · refine ⟨.lit b :: r, ?_, fun t => ?_⟩
      · rw [rx_plain _ _ h1, rxByte, if_neg h46, if_neg h5, hr]; rfl
      · cases t with
        | nil => exact Iff.rfl
        | cons c t => rw [RxMatches, DotMatches, h, if_neg h46, RxItem.Matches]

theorem dot_self (s : Bytes) : DotMatches s s := by
  induction s with
  | nil => trivial
  | cons b s ih =>
    refine ⟨?_, ih⟩
    split
    · rename_i h; rw [h]; decide
    · rfl

theorem dot_exact (s : Bytes) : (∀ t, DotMatches s t ↔ t = s) ↔ 46 ∉ s := by
  constructor
  · intro h hm
    obtain ⟨a, b, rfl⟩ := List.append_of_mem hm
    have : DotMatches (a ++ 46 :: b) (a ++ 120 :: b) := by
      clear h hm
      induction a with
      | nil => exact ⟨by decide, dot_self b⟩
      | cons c a ih =>
        refine ⟨?_, ih⟩
        split
        · rename_i h; rw [h]; decide
        · rfl
    have h2 := (h _).mp this
    have h3 := List.append_cancel_left h2
    exact absurd (List.cons.inj h3).1 (by decide)
  · intro h t
    constructor
    · intro hd
      induction s generalizing t with
      | nil => cases t with
        | nil => rfl
        | cons c t => exact hd.elim
      | cons b s ih => cases t with
        | nil => exact hd.elim
        | cons c t =>
          obtain ⟨h1, h2⟩ := hd
          rw [if_neg fun hb => h (by simp [hb])] at h1
          rw [h1, ih (fun hb => h (by simp [hb])) t h2]
    · rintro rfl
      exact dot_self t

/-- The argument is a floating-point number. -/
def Arg.Floating : Arg → Prop
  | .float _ => True
  | .double _ => True
  | .longDouble _ => True
  | _ => False

theorem scalar_bytes (m : Machine) (hm : m.Ok) (hL : m.literals = .default) (a : Arg) (he : a.Exists m.platform)
    (ht : ¬ a.Textual) :
    ∃ e, a.escape m = .ok e ∧ a.string m = .ok e ∧ (∀ b ∈ e, ScalarByte b) ∧ e ≠ [] ∧ (46 ∈ e → a.Floating) := by
  obtain ⟨s, e, j, h1, h2, -, -, -, h3⟩ := C70_renderings_agree m hm hL a he
  obtain rfl := (h3 ht).1
  have main : (∀ b ∈ e, ScalarByte b) → e ≠ [] → (46 ∈ e → a.Floating) →
      ∃ e, a.escape m = .ok e ∧ a.string m = .ok e ∧ (∀ b ∈ e, ScalarByte b) ∧ e ≠ [] ∧ (46 ∈ e → a.Floating) :=
    fun hb hne hf => ⟨e, h2, h1, hb, hne, hf⟩
  have flt : ∀ x : LVal, (∀ neg q, x = .fin neg q → 0 ≤ q) →
      (formatLd m.literals m.env (m.junk FLOAT_SIZE) x >>= FloatObj.string) = .ok e →
      (∀ b ∈ e, ScalarByte b) ∧ e ≠ [] := by
    intro x hx h
    by_cases hf : DFinite x.toDouble
    · have h2 : x.toDouble = (LVal.ofDouble x.toDouble).toDouble := by
        rw [toDouble_ofDouble _ fun h => hf h.1]
      rw [formatLd_congr _ _ _ h2] at h
      obtain ⟨t, ht, hne, hsc⟩ := double_scalar m.env hm.env _ hf m.literals _ (hm.junk _)
      have : t = e := Res.ok.inj (ht.symm.trans h)
      subst this
      exact ⟨hsc, hne⟩
    · obtain ⟨t, ht, h'⟩ := special_text m.env _ (hm.junk _) hx hf
      rw [← hL] at ht
      have : t = e := Res.ok.inj (ht.symm.trans h)
      subst this
      rcases h' with rfl | rfl | rfl <;> decide
  have int : ∀ n : ℤ, a.string m = .ok (decimalText n) → (∀ b ∈ e, ScalarByte b) ∧ e ≠ [] ∧ 46 ∉ e := by
    intro n h
    have : decimalText n = e := Res.ok.inj (h.symm.trans h1)
    subst this
    refine ⟨fun b hb => (decimal_scalar n b hb).1, ?_, fun hb => (decimal_scalar n _ hb).2 rfl⟩
    by_cases hn : n < 0
    · rw [decimalText_neg n hn]; simp
    · rw [decimalText_nonneg n (not_lt.mp hn)]; exact decN_ne_nil _
  cases a with
  | null =>
    have h : (Arg.null).string m = .ok (ascii "null") := by
      rw [Arg.string, hL]; exact (C11_null _ (hm.junk _) []).1
    obtain rfl := Res.ok.inj (h.symm.trans h1)
    exact main (by decide) (by decide) (fun h => absurd h (by decide))
  | bool b =>
    have h : (Arg.bool b).string m = .ok (ascii (if b then "true" else "false")) := by
      rw [Arg.string, hL]; exact C10_bool_format _ (hm.junk _) b
    obtain rfl := Res.ok.inj (h.symm.trans h1)
    cases b <;> exact main (by decide) (by decide) (fun h => absurd h (by decide))
  | char c => exact absurd trivial ht
  | int v =>
    obtain ⟨h3, h4, h5⟩ := int _ (stringInt_eq _ hm.platform _ (hm.junk _) v he)
    exact main h3 h4 fun h => absurd h h5
  | enum v =>
    obtain ⟨h3, h4, h5⟩ := int _ (stringEnum_eq _ hm.platform _ (hm.junk _) v he)
    exact main h3 h4 fun h => absurd h h5
  | fpos o =>
    obtain ⟨h3, h4, h5⟩ := int _ (formatFpos_eq _ hm.platform _ (hm.junk _) o)
    exact main h3 h4 fun h => absurd h h5
  | float u =>
    obtain ⟨h3, h4⟩ := flt (.ofFloat u) (fun neg q h => ofFloat_nonneg h) h1
    exact main h3 h4 fun _ => trivial
  | double u =>
    obtain ⟨h3, h4⟩ := flt (.ofDouble u) (fun neg q h => ofDouble_nonneg h) h1
    exact main h3 h4 fun _ => trivial
  | longDouble x =>
    obtain ⟨h3, h4⟩ := flt x (fun neg q h => by subst h; exact he) h1
    exact main h3 h4 fun _ => trivial
  | text a => exact absurd trivial ht

/-- C94, other arguments.  `escape` of an argument that is no text has no backslash.  A shell reads it as the one word it
is.  As a regular expression it matches itself, but the point of a floating-point number stays a wildcard: the
expression matches only itself exactly if it has no point, as for every other type. -/
theorem C94_scalars (m : Machine) (hm : m.Ok) (hL : m.literals = .default) (a : Arg) (he : a.Exists m.platform)
    (ht : ¬ a.Textual) :
    ∃ e, a.escape m = .ok e ∧ a.string m = .ok e ∧ shellWords e = some [e] ∧ (46 ∈ e → a.Floating) ∧
      ∃ r, rxItems e = some r ∧ RxMatches r e ∧ ((∀ t, RxMatches r t ↔ t = e) ↔ 46 ∉ e) := by
  obtain ⟨e, h1, h2, hb, hne, hf⟩ := scalar_bytes m hm hL a he ht
  obtain ⟨r, hr, hm⟩ := rx_scalar e hb
  refine ⟨e, h1, h2, shell_scalar e hb hne, hf, r, hr, (hm e).mpr (dot_self e), ?_⟩
  rw [← dot_exact]
  simp only [hm]

/-- The wildcard is real: `escape(1.5)` as an expression matches "1x5". -/
example : stringDouble .default sampleEnv (List.replicate 30 0) 0x3FF8000000000000 = .ok (ascii "1.5") ∧
    DotMatches (ascii "1.5") (ascii "1x5") := by
  refine ⟨by decide +kernel, ?_⟩
  exact ⟨rfl, by decide, rfl, trivial⟩

end Lexi
