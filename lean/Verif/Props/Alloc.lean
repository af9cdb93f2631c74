import Verif.Model.Alloc
import Verif.Props.Str

/-!
# C109: the memory `escape` and `jsonify` ask for, and the exceptions they throw
-/

namespace Lexi
open Spec

namespace Alloc

/-- What the theorems assume of a library: short strings are strings, a chosen capacity suffices and is allowed, and twice
`max_size()` plus one does not wrap in `std::size_t`. -/
structure Lib.Ok (l : Lib) : Prop where
  sso : l.sso ≤ l.maxSize
  cap : ∀ c n, n ≤ l.maxSize → n ≤ l.cap c n ∧ l.cap c n ≤ l.maxSize
  wrap : 2 * l.maxSize + 1 < 2 ^ l.bits

/-- Appending pieces one after the other. -/
def appendAll (l : Lib) : List Bytes → Str → A Str
  | [], s => A.pure s
  | p :: ps, s => do
    let s ← append l p s
    appendAll l ps s

theorem bind_def {α β : Type} (x : A α) (f : α → A β) : (x >>= f) = A.bind x f := rfl

theorem bind_assoc {α β γ : Type} (x : A α) (f : α → A β) (g : β → A γ) :
    A.bind (A.bind x f) g = A.bind x fun a => A.bind (f a) g := by
  funext log
  unfold A.bind
  cases x log <;> rfl

theorem pure_bind {α β : Type} (a : α) (f : α → A β) : A.bind (A.pure a) f = f a := rfl

theorem bind_pure {α : Type} (x : A α) : A.bind x A.pure = x := by
  funext log
  unfold A.bind
  cases x log <;> rfl

theorem appendAll_append (l : Lib) (ps qs : List Bytes) (s : Str) :
    appendAll l (ps ++ qs) s = A.bind (appendAll l ps s) (appendAll l qs) := by
  induction ps generalizing s with
  | nil => rfl
  | cons p ps ih =>
    simp only [List.cons_append, appendAll, bind_def, bind_assoc]
    congr 1
    funext s
    exact ih s

/-! ### The loops append pieces -/

def escPieces (c : UInt8) : List Bytes := if NeedsEscape c then [[92], [c]] else [[c]]

theorem escPieces_flatten (c : UInt8) : (escPieces c).flatten = escB c := by
  unfold escPieces escB
  split <;> rfl

theorem escapeLoop_eq (l : Lib) (sgn : Bool) (src : Bytes) (s : Str) :
    escapeLoop l sgn s src = appendAll l (src.flatMap escPieces) s := by
  induction src generalizing s with
  | nil => rfl
  | cons c cs ih =>
    rw [List.flatMap_cons, appendAll_append, escapeLoop]
    by_cases h : NeedsEscape c
    · have h1 : escapeTest sgn c = true := (escapeTest_iff sgn c).mpr h
      simp only [escPieces, h, h1, if_true, appendAll, bind_def, bind_assoc, pure_bind, pushBack, ih]
    · have h1 : ¬ escapeTest sgn c = true := fun h' => h ((escapeTest_iff sgn c).mp h')
      simp only [escPieces, h, h1, if_false, appendAll, bind_def, bind_assoc, pure_bind, pushBack, ih,
        Bool.false_eq_true]

def jsonPieces (c : UInt8) : List Bytes :=
  if (jsonB c).length = 6 then [[92, 117, 48, 48], ((jsonB c).drop 4).take 1, (jsonB c).drop 5]
  else (jsonB c).map fun b => [b]

theorem jsonPieces_flatten (c : UInt8) : (jsonPieces c).flatten = jsonB c := by
  revert c
  exact forall_byte (by decide +kernel)

/-- The control bytes without a short form: the two digits. -/
theorem control_digits (sgn : Bool) (c : UInt8) (h : c ≠ 8 ∧ c ≠ 12 ∧ c ≠ 10 ∧ c ≠ 13 ∧ c ≠ 9 ∧ c ≠ 92 ∧ c ≠ 34)
    (hc : (charVal sgn c ≥ 0 && charVal sgn c ≤ 0x1f) = true) :
    ∃ a b, hexAt (charVal sgn c >>> 4) = .ok a ∧ hexAt (charVal sgn c % 16) = .ok b ∧
      jsonPieces c = [[92, 117, 48, 48], [a], [b]] := by
  have key : ∀ c : UInt8, (c ≠ 8 ∧ c ≠ 12 ∧ c ≠ 10 ∧ c ≠ 13 ∧ c ≠ 9 ∧ c ≠ 92 ∧ c ≠ 34) →
      (charVal sgn c ≥ 0 && charVal sgn c ≤ 0x1f) = true →
      hexAt (charVal sgn c >>> 4) = .ok ((jsonB c)[4]!) ∧ hexAt (charVal sgn c % 16) = .ok ((jsonB c)[5]!) ∧
      jsonPieces c = ([[92, 117, 48, 48], [(jsonB c)[4]!], [(jsonB c)[5]!]] : List Bytes) := by
    refine forall_byte ?_
    cases sgn <;> decide +kernel
  obtain ⟨h1, h2, h3⟩ := key c h hc
  exact ⟨_, _, h1, h2, h3⟩

theorem plain_piece (sgn : Bool) (c : UInt8) (h : c ≠ 8 ∧ c ≠ 12 ∧ c ≠ 10 ∧ c ≠ 13 ∧ c ≠ 9 ∧ c ≠ 92 ∧ c ≠ 34)
    (hc : ¬ (charVal sgn c ≥ 0 && charVal sgn c ≤ 0x1f) = true) : jsonPieces c = [[c]] := by
  revert c
  refine forall_byte ?_
  cases sgn <;> decide +kernel

theorem ofRes_ok {α : Type} (a : α) : ofRes (.ok a) = A.pure a := rfl

section
attribute [local irreducible] A.pure A.bind append

theorem jsonifyStep_pieces (l : Lib) (sgn : Bool) (c : UInt8) (s : Str) :
    jsonifyStep l sgn s c = appendAll l (jsonPieces c) s := by
  have two : ∀ e, jsonPieces c = [[92], [e]] → pushTwo l e s = appendAll l (jsonPieces c) s := by
    intro e h
    rw [h]
    simp only [pushTwo, pushBack, appendAll, bind_def, bind_pure]
  unfold jsonifyStep
  repeat' split
  all_goals try
    rename_i h
    obtain rfl := eq_of_beq h
    exact two _ (by decide)
  · rename_i h1 h2 h3 h4 h5 h6 h7 hc
    simp only [beq_iff_eq] at h1 h2 h3 h4 h5 h6 h7
    obtain ⟨a, b, ha, hb, hp⟩ := control_digits sgn c ⟨h1, h2, h3, h4, h5, h6, h7⟩ hc
    rw [hp, ha, hb]
    simp only [pushBack, appendAll, bind_def, bind_pure, ofRes_ok, pure_bind]
  · rename_i h1 h2 h3 h4 h5 h6 h7 hc
    simp only [beq_iff_eq] at h1 h2 h3 h4 h5 h6 h7
    rw [plain_piece sgn c ⟨h1, h2, h3, h4, h5, h6, h7⟩ hc]
    simp only [pushBack, appendAll, bind_def, bind_pure]

end

theorem jsonifyLoop_pieces (l : Lib) (sgn : Bool) (src : Bytes) (s : Str) :
    jsonifyLoop l sgn s src = appendAll l (src.flatMap jsonPieces) s := by
  induction src generalizing s with
  | nil => rfl
  | cons c cs ih =>
    rw [List.flatMap_cons, appendAll_append, jsonifyLoop, jsonifyStep_pieces, bind_def]
    congr 1
    funext s
    exact ih s

/-! ### What appending asks for -/

/-- `rs` are the capacities requested one after the other, starting at capacity `c` and ending at `c'`, each because the
capacity did not hold a number of bytes up to `total`. -/
inductive Grows (l : Lib) (total : Nat) : Nat → List Nat → Nat → Prop
  | nil (c) : Grows l total c [] c
  | cons {c n rs c'} : c < n → n ≤ total → n ≤ l.maxSize → Grows l total (l.cap c n) rs c' → Grows l total c (l.cap c n :: rs) c'

theorem Grows.mono {l : Lib} {t t' c c' : Nat} {rs : List Nat} (h : Grows l t c rs c') (ht : t ≤ t') : Grows l t' c rs c' := by
  induction h with
  | nil c => exact .nil c
  | cons h1 h2 h3 _ ih => exact .cons h1 (Nat.le_trans h2 ht) h3 ih

theorem Grows.trans {l : Lib} {t c c' c'' : Nat} {rs rs' : List Nat} (h : Grows l t c rs c') (h' : Grows l t c' rs' c'') :
    Grows l t c (rs ++ rs') c'' := by
  induction h with
  | nil c => exact h'
  | cons h1 h2 h3 _ ih => exact .cons h1 h2 h3 (ih h')

/-- How a call that makes room ends: with enough of it, or beyond `max_size()`, or because a request was refused. -/
inductive Ends (l : Lib) (total : Nat) (s : Str) (d : Bytes) (log : List Nat) : Out Str → Prop
  | ok {rs c'} : Grows l total s.cap rs c' → total ≤ c' → c' ≤ l.maxSize → Ends l total s d log (.ok ⟨d, c'⟩ (log ++ rs))
  | lengthError {rs c'} : Grows l total s.cap rs c' → l.maxSize < total → Ends l total s d log (.lengthError (log ++ rs))
  | badAlloc {rs c' r} : Grows l total s.cap rs c' → l.grants (log ++ rs) r = false →
      Ends l total s d log (.badAlloc (log ++ rs ++ [r]))

theorem reserve_ends {l : Lib} (hl : l.Ok) (n : Nat) (s : Str) (hc : s.cap ≤ l.maxSize) (log : List Nat) :
    Ends l n s s.data log (reserve l n s log) := by
  unfold reserve
  by_cases h1 : n ≤ s.cap
  · rw [if_pos h1]
    have := Ends.ok (l := l) (d := s.data) (log := log) (.nil s.cap) h1 hc
    rwa [List.append_nil] at this
  rw [if_neg h1]
  by_cases h2 : l.maxSize < n
  · rw [if_pos h2]
    have := Ends.lengthError (l := l) (d := s.data) (log := log) (.nil s.cap) h2
    rwa [List.append_nil] at this
  rw [if_neg h2, bind_def]
  unfold A.bind request
  obtain ⟨k1, k2⟩ := hl.cap s.cap n (by omega)
  by_cases hg : l.grants log (l.cap s.cap n) = true
  · simp only [hg, if_true]
    exact .ok (.cons (by omega) (Nat.le_refl _) (by omega) (.nil _)) k1 k2
  · simp only [hg, if_false, Bool.false_eq_true]
    have := Ends.badAlloc (l := l) (d := s.data) (log := log) (total := n) (r := l.cap s.cap n) (.nil s.cap)
      (by rw [List.append_nil]; simpa using hg)
    rwa [List.append_nil] at this

theorem append_ends {l : Lib} (hl : l.Ok) (t : Bytes) (s : Str) (hc : s.cap ≤ l.maxSize) (log : List Nat) :
    Ends l (s.data.length + t.length) s (s.data ++ t) log (append l t s log) := by
  unfold append
  rw [bind_def]
  unfold A.bind
  have h := reserve_ends hl (s.data.length + t.length) s hc log
  generalize reserve l (s.data.length + t.length) s log = o at h
  cases h with
  | ok h1 h2 h3 => exact .ok h1 h2 h3
  | lengthError h1 h2 => exact .lengthError h1 h2
  | badAlloc h1 h2 => exact .badAlloc h1 h2

theorem prepend_ends {l : Lib} (hl : l.Ok) (t : Bytes) (s : Str) (hc : s.cap ≤ l.maxSize) (log : List Nat) :
    Ends l (s.data.length + t.length) s (t ++ s.data) log (prepend l t s log) := by
  unfold prepend
  rw [bind_def]
  unfold A.bind
  have h := reserve_ends hl (s.data.length + t.length) s hc log
  generalize reserve l (s.data.length + t.length) s log = o at h
  cases h with
  | ok h1 h2 h3 => exact .ok h1 h2 h3
  | lengthError h1 h2 => exact .lengthError h1 h2
  | badAlloc h1 h2 => exact .badAlloc h1 h2

theorem appendAll_ends {l : Lib} (hl : l.Ok) (ps : List Bytes) (s : Str) (hs : s.data.length ≤ s.cap) (hc : s.cap ≤ l.maxSize)
    (log : List Nat) :
    Ends l (s.data.length + ps.flatten.length) s (s.data ++ ps.flatten) log (appendAll l ps s log) := by
  induction ps generalizing s log with
  | nil =>
    have := Ends.ok (l := l) (d := s.data) (log := log) (.nil (total := s.data.length) s.cap) hs hc
    simpa [appendAll, A.pure] using this
  | cons p ps ih =>
    have h := append_ends hl p s hc log
    have hle : s.data.length + p.length ≤ s.data.length + (p :: ps).flatten.length := by
      rw [List.flatten_cons, List.length_append]; omega
    rw [appendAll, bind_def]
    unfold A.bind
    generalize append l p s log = o at h
    cases h with
    | lengthError h1 h2 => exact .lengthError (h1.mono hle) (by omega)
    | badAlloc h1 h2 => exact .badAlloc (h1.mono hle) h2
    | @ok rs c' h1 h2 h3 =>
      have h := ih ⟨s.data ++ p, c'⟩ (by simpa using h2) h3 (log ++ rs)
      have e1 : (s.data ++ p).length + ps.flatten.length = s.data.length + (p :: ps).flatten.length := by
        rw [List.flatten_cons, List.length_append, List.length_append]; omega
      have e2 : s.data ++ p ++ ps.flatten = s.data ++ (p :: ps).flatten := by rw [List.flatten_cons, List.append_assoc]
      dsimp only at h ⊢
      rw [e1, e2] at h
      generalize appendAll l ps ⟨s.data ++ p, c'⟩ (log ++ rs) = o at h
      have g := h1.mono hle
      cases h with
      | ok k1 k2 k3 => rw [List.append_assoc]; exact .ok (g.trans k1) k2 k3
      | lengthError k1 k2 => rw [List.append_assoc]; exact .lengthError (g.trans k1) k2
      | badAlloc k1 k2 =>
        rw [List.append_assoc log]
        rw [List.append_assoc] at k2
        exact .badAlloc (g.trans k1) k2

/-- Nothing more is asked for once the capacity suffices. -/
theorem Grows.enough {l : Lib} {t c c' : Nat} {rs : List Nat} (h : Grows l t c rs c') (hc : t ≤ c) : rs = [] ∧ c' = c := by
  cases h with
  | nil => exact ⟨rfl, rfl⟩
  | cons h1 h2 => omega

/-- The library at least doubles a capacity that does not suffice, up to `max_size()`. -/
def Lib.Doubles (l : Lib) : Prop := ∀ c n, c < n → n ≤ l.maxSize → 2 * c ≤ l.cap c n ∨ l.cap c n = l.maxSize

/-- The library grows a capacity that does not suffice by at least a half, up to `max_size()`. -/
def Lib.GrowsByHalf (l : Lib) : Prop := ∀ c n, c < n → n ≤ l.maxSize → 3 * c ≤ 2 * l.cap c n ∨ l.cap c n = l.maxSize

theorem Grows.doubles {l : Lib} (hd : l.Doubles) {t c c' : Nat} {rs : List Nat} (h : Grows l t c rs c') (ht : t ≤ 3 * c) :
    rs.length ≤ 2 := by
  cases h with
  | nil => simp
  | cons a1 a2 a3 h =>
    have b1 := hd _ _ a1 a3
    cases h with
    | nil => simp
    | cons a4 a5 a6 h =>
      have b2 := hd _ _ a4 a6
      cases h with
      | nil => simp
      | cons a7 a8 a9 h => omega

theorem Grows.byHalf {l : Lib} (hd : l.GrowsByHalf) {t c c' : Nat} {rs : List Nat} (h : Grows l t c rs c') (ht : t ≤ 3 * c) :
    rs.length ≤ 3 := by
  cases h with
  | nil => simp
  | cons a1 a2 a3 h =>
    have b1 := hd _ _ a1 a3
    cases h with
    | nil => simp
    | cons a4 a5 a6 h =>
      have b2 := hd _ _ a4 a6
      cases h with
      | nil => simp
      | cons a7 a8 a9 h =>
        have b3 := hd _ _ a7 a9
        cases h with
        | nil => simp
        | cons a10 a11 a12 h => omega

/-- The request of the call of `reserve`. -/
def first (l : Lib) (src : Bytes) : List Nat :=
  if 2 * src.length + 1 ≤ l.sso then [] else [l.cap l.sso (2 * src.length + 1)]

/-- How building ends. -/
inductive Built (l : Lib) (src d : Bytes) : Out Str → Prop
  | ok {c rs c'} : 2 * src.length + 1 ≤ c → 2 * src.length + 1 ≤ l.maxSize → Grows l d.length c rs c' → d.length ≤ c' →
      c' ≤ l.maxSize → Built l src d (.ok ⟨d, c'⟩ (first l src ++ rs))
  | lengthError {log} : l.maxSize < 2 * src.length + 1 ∨ l.maxSize < d.length → Built l src d (.lengthError log)
  | badAlloc {pre r} : l.grants pre r = false → Built l src d (.badAlloc (pre ++ [r]))

theorem built {l : Lib} (hl : l.Ok) (src : Bytes) (h : src.length ≤ l.maxSize) (ps : List Bytes) :
    Built l src ps.flatten (A.bind (reserve l (guess l src) ⟨[], l.sso⟩) (appendAll l ps) []) := by
  have hw := hl.wrap
  have hg : guess l src = 2 * src.length + 1 := by
    unfold guess
    rw [Nat.mod_eq_of_lt] <;> omega
  have hs := hl.sso
  have go : ∀ c log, 2 * src.length + 1 ≤ c → 2 * src.length + 1 ≤ l.maxSize → c ≤ l.maxSize → log = first l src →
      Built l src ps.flatten (appendAll l ps ⟨[], c⟩ log) := by
    intro c log h1 h2 h3 e
    have k := appendAll_ends hl ps ⟨[], c⟩ (Nat.zero_le _) h3 log
    generalize appendAll l ps ⟨[], c⟩ log = o at k
    simp only [List.length_nil, Nat.zero_add, List.nil_append] at k
    cases k with
    | ok k1 k2 k3 => rw [e]; exact .ok h1 h2 k1 k2 k3
    | lengthError k1 k2 => exact .lengthError (Or.inr k2)
    | badAlloc k1 k2 => exact .badAlloc k2
  rw [hg]
  unfold A.bind reserve
  by_cases h1 : 2 * src.length + 1 ≤ l.sso
  · rw [if_pos h1]
    exact go _ _ h1 (by omega) hs (by rw [first, if_pos h1])
  · rw [if_neg h1]
    by_cases h2 : l.maxSize < 2 * src.length + 1
    · rw [if_pos h2]
      exact .lengthError (Or.inl h2)
    · rw [if_neg h2, bind_def]
      obtain ⟨k1, k2⟩ := hl.cap l.sso (2 * src.length + 1) (by omega)
      unfold A.bind request
      by_cases hq : l.grants [] (l.cap l.sso (2 * src.length + 1)) = true
      · simp only [hq, if_true]
        exact go _ _ k1 (by omega) k2 (by rw [first, if_neg h1]; rfl)
      · simp only [hq, if_false, Bool.false_eq_true]
        exact .badAlloc (by simpa using hq)

/-- What `shrink_to_fit` leaves. -/
theorem shrink_ends {l : Lib} (hl : l.Ok) (s : Str) (h1 : s.data.length ≤ s.cap) (h2 : s.cap ≤ l.maxSize) (log : List Nat) :
    (∃ c rs, shrinkToFit l s log = .ok ⟨s.data, c⟩ (log ++ rs) ∧ rs.length ≤ 1 ∧ s.data.length ≤ c ∧ c ≤ l.maxSize) ∨
    (∃ r, shrinkToFit l s log = .badAlloc (log ++ [r]) ∧ l.grants log r = false) := by
  have := hl.sso
  unfold shrinkToFit
  by_cases a : l.shrinks s.data.length s.cap = true
  · by_cases b : l.grants log s.data.length = true
    · exact Or.inl ⟨max l.sso s.data.length, [s.data.length], by simp [a, b], by simp, by omega, by omega⟩
    · by_cases c : l.shrinkThrows = true
      · exact Or.inr ⟨s.data.length, by simp [a, b, c], by simpa using b⟩
      · exact Or.inl ⟨s.cap, [s.data.length], by simp [a, b, c], by simp, h1, h2⟩
  · exact Or.inl ⟨s.cap, [], by simp [a], by simp, h1, h2⟩

/-- How a call of `detail::escape` or `detail::jsonify` ends. -/
inductive Called (l : Lib) (src d : Bytes) : Out Str → Prop
  | ok {c rs c' rs' c''} : 2 * src.length + 1 ≤ c → 2 * src.length + 1 ≤ l.maxSize → Grows l d.length c rs c' →
      d.length ≤ l.maxSize → rs'.length ≤ 1 → d.length ≤ c'' → c'' ≤ l.maxSize →
      Called l src d (.ok ⟨d, c''⟩ (first l src ++ rs ++ rs'))
  | lengthError {log} : l.maxSize < 2 * src.length + 1 ∨ l.maxSize < d.length → Called l src d (.lengthError log)
  | badAlloc {pre r} : l.grants pre r = false → Called l src d (.badAlloc (pre ++ [r]))

theorem called {l : Lib} (hl : l.Ok) (src : Bytes) (h : src.length ≤ l.maxSize) (ps : List Bytes) :
    Called l src ps.flatten
      (A.bind (reserve l (guess l src) ⟨[], l.sso⟩) (fun d => A.bind (appendAll l ps d) (shrinkToFit l)) []) := by
  rw [← bind_assoc]
  have hb := built hl src h ps
  rw [A.bind]
  generalize A.bind (reserve l (guess l src) ⟨[], l.sso⟩) (appendAll l ps) [] = o at hb
  cases hb with
  | lengthError h => exact .lengthError h
  | badAlloc h => exact .badAlloc h
  | @ok c rs c' h1 h2 h3 h4 h5 =>
    rcases shrink_ends hl ⟨ps.flatten, c'⟩ h4 h5 (first l src ++ rs) with ⟨c'', rs', e, k1, k2, k3⟩ | ⟨r, e, k⟩
    · dsimp only
      rw [e]
      exact .ok h1 h2 h3 (Nat.le_trans h4 h5) k1 k2 k3
    · dsimp only
      rw [e]
      exact .badAlloc k

theorem flatten_esc (src : Bytes) : (src.flatMap escPieces).flatten = src.flatMap escB := by
  induction src with
  | nil => rfl
  | cons c cs ih => rw [List.flatMap_cons, List.flatten_append, ih, escPieces_flatten, List.flatMap_cons]

theorem flatten_json (src : Bytes) : (src.flatMap jsonPieces).flatten = src.flatMap jsonB := by
  induction src with
  | nil => rfl
  | cons c cs ih => rw [List.flatMap_cons, List.flatten_append, ih, jsonPieces_flatten, List.flatMap_cons]

theorem escape_called {l : Lib} (hl : l.Ok) (sgn : Bool) (src : Bytes) (h : src.length ≤ l.maxSize) :
    Called l src (src.flatMap escB) (escape l sgn src []) := by
  rw [← flatten_esc]
  have := called hl src h (src.flatMap escPieces)
  unfold escape
  simp only [bind_def, escapeLoop_eq]
  exact this

theorem jsonify_called {l : Lib} (hl : l.Ok) (sgn : Bool) (src : Bytes) (h : src.length ≤ l.maxSize) :
    Called l src (src.flatMap jsonB) (jsonify l sgn src []) := by
  rw [← flatten_json]
  have := called hl src h (src.flatMap jsonPieces)
  unfold jsonify
  simp only [bind_def, jsonifyLoop_pieces]
  exact this

theorem first_length (l : Lib) (src : Bytes) : (first l src).length ≤ 1 := by
  unfold first
  split <;> simp

theorem escB_length (src : Bytes) : (src.flatMap escB).length ≤ 2 * src.length := by
  induction src with
  | nil => simp
  | cons c cs ih =>
    have : (escB c).length ≤ 2 := by unfold escB; split <;> simp
    rw [List.flatMap_cons, List.length_append, List.length_cons]
    omega

/-- How a call of `lexi::jsonify` for a string ends. -/
inductive Quoted (l : Lib) (src d : Bytes) : Out Str → Prop
  | ok {c log} : 2 * src.length + 1 ≤ l.maxSize → d.length + 2 ≤ l.maxSize → Quoted l src d (.ok ⟨34 :: (d ++ [34]), c⟩ log)
  | lengthError {log} : l.maxSize < 2 * src.length + 1 ∨ l.maxSize < d.length + 2 → Quoted l src d (.lengthError log)
  | badAlloc {pre r} : l.grants pre r = false → Quoted l src d (.badAlloc (pre ++ [r]))

theorem quoted {l : Lib} (hl : l.Ok) (sgn : Bool) (src : Bytes) (h : src.length ≤ l.maxSize) :
    Quoted l src (src.flatMap jsonB) (jsonifyStr l sgn src []) := by
  have h1 := jsonify_called hl sgn src h
  unfold jsonifyStr
  rw [bind_def, A.bind]
  generalize jsonify l sgn src [] = o at h1
  generalize src.flatMap jsonB = d at *
  cases h1 with
  | lengthError h => exact .lengthError (by omega)
  | badAlloc h => exact .badAlloc h
  | @ok c rs c' rs' c'' a1 a2 a3 a4 a5 a6 a7 =>
    dsimp only
    have h2 := prepend_ends hl [34] ⟨d, c''⟩ a7 (first l src ++ rs ++ rs')
    rw [bind_def, A.bind]
    generalize prepend l [34] ⟨d, c''⟩ (first l src ++ rs ++ rs') = o at h2
    cases h2 with
    | lengthError _ h => exact .lengthError (Or.inr (by simp at h; omega))
    | badAlloc _ h => exact .badAlloc h
    | @ok rs2 c2 b1 b2 b3 =>
      dsimp only
      have h3 := append_ends hl [34] ⟨[34] ++ d, c2⟩ b3 (first l src ++ rs ++ rs' ++ rs2)
      generalize append l [34] ⟨[34] ++ d, c2⟩ (first l src ++ rs ++ rs' ++ rs2) = o at h3
      cases h3 with
      | lengthError _ h => exact .lengthError (Or.inr (by simp at h; omega))
      | badAlloc _ h => exact .badAlloc h
      | ok d1 d2 d3 => exact .ok a2 (by simp at d2; omega)

end Alloc

open Alloc (Lib Out)

/-! ### C109 -/

/-- C109, the bytes: on every library, whatever memory is granted, a call of `escape` or `jsonify` that returns, returns the bytes
of Model/Str.lean, about which C13 to C19 are proved; a call that fails for want of memory does so because a request was
refused; nothing is undefined. -/
theorem C109_bytes (l : Lib) (hl : l.Ok) (sgn : Bool) (src : Bytes) (h : src.length ≤ l.maxSize) :
    (∀ s log, Alloc.escape l sgn src [] = .ok s log → Escaped src s.data ∧ s.data = escapeStr sgn src) ∧
    (∀ s log, Alloc.jsonifyStr l sgn src [] = .ok s log → jsonifyStr sgn src = .ok s.data) ∧
    (∀ log, Alloc.escape l sgn src [] = .badAlloc log ∨ Alloc.jsonifyStr l sgn src [] = .badAlloc log →
      ∃ pre r, log = pre ++ [r] ∧ l.grants pre r = false) ∧
    Alloc.escape l sgn src [] ≠ .ub ∧ Alloc.jsonifyStr l sgn src [] ≠ .ub := by
  have h1 := Alloc.escape_called hl sgn src h
  have h2 := Alloc.quoted hl sgn src h
  generalize Alloc.escape l sgn src [] = o1 at h1
  generalize Alloc.jsonifyStr l sgn src [] = o2 at h2
  refine ⟨?_, ?_, ?_, ?_, ?_⟩
  · rintro s log rfl
    have e : s.data = src.flatMap escB := by cases h1; rfl
    rw [e]
    exact ⟨escaped_flatMap src, by rw [escapeStr, escape_eq]⟩
  · rintro s log rfl
    have e : s.data = 34 :: (src.flatMap jsonB ++ [34]) := by cases h2; rfl
    rw [e, jsonifyStr_eq]
  · rintro log (rfl | rfl)
    · cases h1; exact ⟨_, _, rfl, ‹_›⟩
    · cases h2; exact ⟨_, _, rfl, ‹_›⟩
  · rintro rfl; cases h1
  · rintro rfl; cases h2

/-- C109, `escape` asks once: for a buffer of `2n + 1` bytes, and never again while it builds the text; `shrink_to_fit` may ask once
more.  It throws `std::length_error` exactly if that buffer is beyond `max_size()`, even where the text itself is not. -/
theorem C109_escape (l : Lib) (hl : l.Ok) (sgn : Bool) (src : Bytes) (h : src.length ≤ l.maxSize) :
    ((∃ log, Alloc.escape l sgn src [] = .lengthError log) ↔ l.maxSize < 2 * src.length + 1) ∧
    (∀ s log, Alloc.escape l sgn src [] = .ok s log → ∃ rest, rest.length ≤ 1 ∧
      log = (if 2 * src.length + 1 ≤ l.sso then [] else [l.cap l.sso (2 * src.length + 1)]) ++ rest) := by
  have h1 := Alloc.escape_called hl sgn src h
  have hlen := Alloc.escB_length src
  constructor
  · constructor
    · rintro ⟨log, e⟩
      rw [e] at h1
      cases h1 with
      | lengthError h => omega
    · intro hm
      have hw := hl.wrap
      have hs := hl.sso
      refine ⟨[], ?_⟩
      have hg : Alloc.guess l src = 2 * src.length + 1 := by
        unfold Alloc.guess
        rw [Nat.mod_eq_of_lt] <;> omega
      unfold Alloc.escape
      rw [Alloc.bind_def, Alloc.A.bind, hg, Alloc.reserve, if_neg (show ¬ _ ≤ l.sso by omega), if_pos hm]
      rfl
  · intro s log e
    rw [e] at h1
    cases h1 with
    | ok a1 a2 a3 a4 a5 a6 a7 =>
      obtain ⟨rfl, -⟩ := a3.enough (by omega)
      rw [List.append_nil]
      exact ⟨_, a5, rfl⟩

/-- C109, `jsonify` throws `std::length_error` only if `2n + 1` bytes or the text are beyond `max_size()`, and exactly then if
memory is granted. -/
theorem C109_jsonify_length (l : Lib) (hl : l.Ok) (sgn : Bool) (src t : Bytes) (h : src.length ≤ l.maxSize)
    (ht : jsonifyStr sgn src = .ok t) :
    (∀ log, Alloc.jsonifyStr l sgn src [] = .lengthError log → l.maxSize < 2 * src.length + 1 ∨ l.maxSize < t.length) ∧
    ((∀ pre r, l.grants pre r = true) → l.maxSize < 2 * src.length + 1 ∨ l.maxSize < t.length →
      ∃ log, Alloc.jsonifyStr l sgn src [] = .lengthError log) := by
  have h1 := Alloc.quoted hl sgn src h
  rw [jsonifyStr_eq] at ht
  obtain rfl := Res.ok.inj ht
  have e : (34 :: (src.flatMap jsonB ++ [34]) : Bytes).length = (src.flatMap jsonB).length + 2 := by simp
  rw [e]
  constructor
  · intro log e
    rw [e] at h1
    cases h1 with
    | lengthError h => exact h
  · intro hg hm
    generalize Alloc.jsonifyStr l sgn src [] = o at h1
    cases h1 with
    | ok a1 a2 => omega
    | lengthError _ => exact ⟨_, rfl⟩
    | badAlloc hb => rw [hg] at hb; cases hb

/-- C109, `detail::jsonify` asks for `2n + 1` bytes first.  While it builds the text it asks no more if the text has that length,
at most twice more where capacities double, and at most three times more where they grow by half; `shrink_to_fit` may ask
once more. -/
theorem C109_jsonify_requests (l : Lib) (hl : l.Ok) (sgn : Bool) (src : Bytes) (h : src.length ≤ l.maxSize) (s : Alloc.Str)
    (log : List Nat) (he : Alloc.jsonify l sgn src [] = .ok s log) :
    ∃ more rest, rest.length ≤ 1 ∧
      log = (if 2 * src.length + 1 ≤ l.sso then [] else [l.cap l.sso (2 * src.length + 1)]) ++ more ++ rest ∧
      (s.data.length ≤ 2 * src.length + 1 → more = []) ∧ (l.Doubles → more.length ≤ 2) ∧ (l.GrowsByHalf → more.length ≤ 3) := by
  have h1 := Alloc.jsonify_called hl sgn src h
  have hlen := (flatMap_jsonB_length src).2
  rw [he] at h1
  cases h1 with
  | @ok c rs _ _ _ a1 a2 a3 a4 a5 a6 a7 =>
    refine ⟨rs, _, a5, rfl, fun hd => (a3.enough ?_).1, fun hd => a3.doubles hd ?_, fun hd => a3.byHalf hd ?_⟩
    · dsimp only at hd; omega
    · omega
    · omega

/-! ### Instances -/

/-- libstdc++ on a 64-bit platform: capacities double, `shrink_to_fit` swallows exceptions. -/
def Alloc.gnu : Lib :=
  ⟨64, 2 ^ 62 - 1, 15, fun c n => if n < 2 * c then min (2 * c) (2 ^ 62 - 1) else n, fun _ _ => true, fun n c => n < c && 15 < n, false⟩

theorem Alloc.gnu_ok : Alloc.gnu.Ok ∧ Alloc.gnu.Doubles := by
  refine ⟨⟨by decide, fun c n h => ?_, by decide⟩, fun c n h1 h2 => ?_⟩
  · change n ≤ (if n < 2 * c then min (2 * c) (2 ^ 62 - 1) else n) ∧ (if n < 2 * c then min (2 * c) (2 ^ 62 - 1) else n) ≤ 2 ^ 62 - 1
    change n ≤ 2 ^ 62 - 1 at h
    split <;> omega
  · change 2 * c ≤ (if n < 2 * c then min (2 * c) (2 ^ 62 - 1) else n) ∨ (if n < 2 * c then min (2 * c) (2 ^ 62 - 1) else n) = 2 ^ 62 - 1
    split <;> omega

/-- The bounds are reached: sixteen NULs need 96 bytes, for which 33, 66 and 132 are asked for, and 96 by `shrink_to_fit`. -/
example : (match Alloc.jsonify Alloc.gnu true (List.replicate 16 0) [] with | .ok _ log => log | _ => []) = [33, 66, 132, 96] := by
  decide +kernel

/-- A library of a small `max_size()` that refuses the second request. -/
def Alloc.small : Lib := ⟨16, 20, 3, fun _ n => n, fun pre _ => pre.isEmpty, fun _ _ => true, true⟩

theorem Alloc.small_ok : Alloc.small.Ok := ⟨by decide, fun _ _ h => ⟨Nat.le_refl _, h⟩, by decide⟩

/-- Ten letters would fit, but the buffer `escape` and `jsonify` ask for does not; nine letters are escaped, and the exception of
`shrink_to_fit` gets out; two NULs exhaust the memory. -/
example : Alloc.escape Alloc.small true (ascii "abcdefghij") [] = .lengthError [] ∧
    Alloc.jsonifyStr Alloc.small true (ascii "abcdefghij") [] = .lengthError [] ∧
    Alloc.escape Alloc.small true (ascii "abcdefghi") [] = .badAlloc [19, 9] ∧
    Alloc.jsonify Alloc.small true [0, 0] [] = .badAlloc [5, 6] := by
  decide +kernel

end Lexi
