import Verif.Proofs.Subject
import Verif.Props.LongDouble
import Verif.Props.ReadSingle

/-!
# What `lexi<float>`, `lexi<double>`, `lexi<long double>` accept: C61
-/

namespace Lexi
open Spec Soft Dtoa

/-- The `long double` a value with a sign becomes. -/
def Reads (F : FpFormat) (neg : Bool) : FloatVal → LVal → Prop
  | .nan, x => x = .nan
  | .inf, x => x = .inf neg
  | .num q, x => (q < overflowAt F.p F.emax → ∃ r, x = .fin neg r ∧ NearestIn F.p F.emin q r) ∧
      (overflowAt F.p F.emax ≤ q → x = .inf neg)

/-- The `long double` a value with a sign becomes, computed with the rounding `R`. -/
def toLValWith (R : Bool → ℚ → LVal) (neg : Bool) : FloatVal → LVal
  | .nan => .nan
  | .inf => .inf neg
  | .num q => R neg q

/-- The `long double` a value with a sign becomes, computed. -/
def toLVal (F : FpFormat) (neg : Bool) (v : FloatVal) : LVal := toLValWith F.round neg v

theorem Numeral_nonneg {base radix perDigit : ℕ} {marker : UInt8} {t : Bytes} {q : ℚ}
    (h : Numeral base radix perDigit marker t q) : 0 ≤ q := by
  obtain ⟨ip, dot, fp, ex, m, e, -, -, -, -, -, rfl⟩ := h
  positivity

theorem reads_round (F : FpFormat) (hp : 2 ≤ F.p) (he : F.emin ≤ (F.emax : ℤ) - F.p) (neg : Bool) {q : ℚ} (hq : 0 ≤ q) :
    Reads F neg (.num q) (F.round neg q) := by
  have ho := Soft.roundRat_overflow hp he hq
  unfold FpFormat.round
  constructor
  · intro h
    refine ⟨_, if_neg (fun hc => ?_), Soft.roundRat_nearestIn hp hq⟩
    push_cast at hc
    exact absurd (ho.mp hc) (not_le.mpr h)
  · intro h
    apply if_pos
    push_cast
    exact ho.mpr h

theorem Subject.nonneg {p : Bytes} {q : ℚ} (h : Subject p (.num q)) : 0 ≤ q := by
  cases h with
  | decimal h => exact Numeral_nonneg h
  | hex _ h => exact Numeral_nonneg h

theorem toLVal_reads (F : FpFormat) (hp : 2 ≤ F.p) (he : F.emin ≤ (F.emax : ℤ) - F.p) (neg : Bool) {p : Bytes}
    {v : FloatVal} (h : Subject p v) : Reads F neg v (toLVal F neg v) := by
  cases v with
  | nan => exact rfl
  | inf => exact rfl
  | num q => exact reads_round F hp he neg (Subject.nonneg h)

/-! ### Words -/

theorem startsWord_iff {w : Bytes} (hw : ∀ l ∈ w, 97 ≤ l ∧ l ≤ 122) (t : Bytes) :
    startsWord w t = true ↔ ∃ p, p <+: t ∧ Word w p := by
  unfold startsWord Word
  induction w generalizing t with
  | nil => exact ⟨fun _ => ⟨[], List.nil_prefix, .nil⟩, fun _ => rfl⟩
  | cons l w ih =>
    cases t with
    | nil =>
      simp only [List.take_nil, List.map_nil]
      constructor
      · intro h; exact absurd h (by simp)
      · rintro ⟨p, h1, h2⟩
        rw [List.prefix_nil.mp h1] at h2
        cases h2
    | cons c t =>
      have ih' := ih (fun l hl => hw l (by simp [hl])) t
      simp only [List.length_cons, List.take_succ_cons, List.map_cons, beq_iff_eq, List.cons.injEq] at ih' ⊢
      rw [ih', isLetter_iff (hw l (by simp)) c]
      constructor
      · rintro ⟨h1, p, h2, h3⟩
        exact ⟨c :: p, List.cons_prefix_cons.mpr ⟨rfl, h2⟩, .cons h1 h3⟩
      · rintro ⟨p, h2, h3⟩
        cases h3 with
        | cons h4 h5 =>
          obtain ⟨rfl, h6⟩ := List.cons_prefix_cons.mp h2
          exact ⟨h4, _, h6, h5⟩

theorem startsWord_head {l : UInt8} {w : Bytes} {c : UInt8} {t : Bytes} (h : startsWord (l :: w) (c :: t) = true) :
    lower c = l := by
  unfold startsWord at h
  simp only [List.length_cons, List.take_succ_cons, List.map_cons, beq_iff_eq, List.cons.injEq] at h
  exact h.1

theorem startsWord_prefix {w p t : Bytes} (hw : ∀ l ∈ w, 97 ≤ l ∧ l ≤ 122) (h : Word w p) (hp : p <+: t) :
    startsWord w t = true := (startsWord_iff hw t).mpr ⟨p, hp, h⟩

/-! ### The longest subject -/

theorem numeral_ne_nil {base radix perDigit : ℕ} {marker : UInt8} {p : Bytes} {q : ℚ}
    (h : Numeral base radix perDigit marker p q) : p ≠ [] := by
  obtain ⟨ip, dot, fp, ex, m, e, rfl, hdot, hne, -⟩ := h
  intro h
  simp only [List.append_eq_nil_iff] at h
  exact hne (by rw [h.1, h.2.2.1]; rfl)

/-- The bytes of a decimal numeral. -/
theorem decimal_bytes {p : Bytes} {q : ℚ} (h : Numeral 10 10 1 101 p q) :
    ∀ c ∈ p, lower c ≠ 120 ∧ (p.head? = some c → lower c ≠ 105 ∧ lower c ≠ 110) := by
  have k1 : ∀ c : UInt8, isDig 10 c = true → lower c ≠ 120 ∧ lower c ≠ 105 ∧ lower c ≠ 110 := by
    refine forall_byte ?_; decide +kernel
  have k2 : ∀ c : UInt8, IsLetter 101 c → lower c ≠ 120 := by
    unfold IsLetter; refine forall_byte ?_; decide +kernel
  obtain ⟨ip, dot, fp, ex, m, e, rfl, hdot, hne, hd, hex, -⟩ := h
  obtain ⟨hall, -⟩ := (digits_iff (Or.inl rfl) _ _).mp hd
  have hsome : ∀ c ∈ ip ++ (dot ++ fp), lower c ≠ 120 ∧ lower c ≠ 105 ∧ lower c ≠ 110 := by
    intro c hc
    rcases List.mem_append.mp hc with hc | hc
    · exact k1 c (hall c (by simp [hc]))
    · rcases List.mem_append.mp hc with hc | hc
      · rcases hdot with ⟨rfl, -⟩ | rfl
        · simp at hc
        · rw [List.mem_singleton.mp hc]; decide
      · exact k1 c (hall c (by simp [hc]))
  have hne' : ip ++ (dot ++ fp) ≠ [] := by
    intro h
    simp only [List.append_eq_nil_iff] at h
    exact hne (by rw [h.1, h.2.2]; rfl)
  have hexb : ∀ c ∈ ex, lower c ≠ 120 := by
    have dg : ∀ {ds n}, Digits 10 ds n → ∀ c ∈ ds, lower c ≠ 120 :=
      fun h c hc => (k1 c (((digits_iff (Or.inl rfl) _ _).mp h).1 c hc)).1
    intro c hc
    cases hex with
    | none => simp at hc
    | pos hl hsg hds hn =>
      rcases List.mem_cons.mp hc with rfl | hc
      · exact k2 _ hl
      · rcases List.mem_append.mp hc with hc | hc
        · rcases hsg with rfl | rfl
          · simp at hc
          · rw [List.mem_singleton.mp hc]; decide
        · exact dg hn c hc
    | neg hl hds hn =>
      rcases List.mem_cons.mp hc with rfl | hc
      · exact k2 _ hl
      · rcases List.mem_cons.mp hc with rfl | hc
        · decide
        · exact dg hn c hc
  rw [show ip ++ (dot ++ (fp ++ ex)) = (ip ++ (dot ++ fp)) ++ ex by simp]
  intro c hc
  constructor
  · rcases List.mem_append.mp hc with hc | hc
    · exact (hsome c hc).1
    · exact hexb c hc
  · intro hh
    obtain ⟨a, b, hab⟩ : ∃ a b, ip ++ (dot ++ fp) = a :: b := by
      cases hl : ip ++ (dot ++ fp) with
      | nil => exact absurd hl hne'
      | cons a b => exact ⟨a, b, rfl⟩
    rw [hab, List.cons_append, List.head?_cons, Option.some.injEq] at hh
    exact (hsome c (by rw [hab, hh]; simp)).2

theorem g10 : Grammar 10 10 1 101 := Or.inl ⟨rfl, rfl, rfl, rfl⟩
theorem g16 : Grammar 16 2 4 112 := Or.inr ⟨rfl, rfl, rfl, rfl⟩

theorem startsWord_hex {t : Bytes} : startsWord [48, 120] t = true ↔ ∃ x t', t = 48 :: x :: t' ∧ IsLetter 120 x := by
  have k : ∀ c : UInt8, lower c = 48 ↔ c = 48 := by refine forall_byte ?_; decide +kernel
  unfold startsWord
  match t with
  | [] => simp
  | [a] => simp
  | a :: b :: t =>
    simp only [List.length_cons, List.take_succ_cons, List.map_cons, beq_iff_eq, List.cons.injEq, k, List.length_nil,
      List.take_zero, List.map_nil, and_true, isLetter_iff (l := 120) (by decide) b]
    constructor
    · rintro ⟨rfl, h⟩; exact ⟨b, t, ⟨rfl, rfl, rfl⟩, h⟩
    · rintro ⟨x, t', ⟨rfl, rfl, rfl⟩, h⟩; exact ⟨rfl, h⟩

theorem scanMagWith_longest (R : Bool → ℚ → LVal) (neg : Bool) {t p : Bytes} {v : FloatVal} (h : Longest t p v) :
    scanMagWith R neg t = toLValWith R neg v := by
  obtain ⟨hpre, hsub, hmax⟩ := h
  have hw1 : ∀ l ∈ ([105, 110, 102] : Bytes), 97 ≤ l ∧ l ≤ 122 := by decide
  have hw2 : ∀ l ∈ ([110, 97, 110] : Bytes), 97 ≤ l ∧ l ≤ 122 := by decide
  have hw3 : ∀ l ∈ ([105, 110, 102, 105, 110, 105, 116, 121] : Bytes), 97 ≤ l ∧ l ≤ 122 := by decide
  have inf_of : startsWord [105, 110, 102] t = true → scanMagWith R neg t = .inf neg := by
    intro h; rw [scanMagWith_eq]; rw [if_pos h]
  have nan_of : startsWord [110, 97, 110] t = true → scanMagWith R neg t = .nan := by
    intro h; rw [scanMagWith_eq]
    rw [if_neg, if_pos h]
    intro h'
    cases t with
    | nil => simp [startsWord] at h
    | cons c t =>
      have a := startsWord_head h
      have b := startsWord_head h'
      rw [a] at b; exact absurd b (by decide)
  cases hsub with
  | inf hw => exact inf_of (startsWord_prefix hw1 hw hpre)
  | infinity hw =>
    apply inf_of
    have := startsWord_prefix hw3 hw hpre
    obtain ⟨p', h1, h2⟩ := (startsWord_iff hw3 t).mp this
    refine (startsWord_iff hw1 t).mpr ⟨p'.take 3, (List.take_prefix _ _).trans h1, ?_⟩
    have := List.forall₂_take 3 h2
    exact this
  | nan hw => exact nan_of (startsWord_prefix hw2 hw hpre)
  | nanChars hw hcs => exact nan_of (startsWord_prefix hw2 hw ((List.prefix_append _ _).trans hpre))
  | @hex x t2 q hx hn =>
    obtain ⟨r, rfl⟩ := hpre
    have hnum : scanNumeral 16 2 4 112 (t2 ++ r) = some q := by
      refine scanNumeral_longest g16 (List.prefix_append _ _) hn fun p' q' hp' hn' => ?_
      have := hmax (48 :: x :: p') _ (by
        simp only [List.cons_append]
        exact List.cons_prefix_cons.mpr ⟨rfl, List.cons_prefix_cons.mpr ⟨rfl, hp'⟩⟩) (.hex hx hn')
      simpa using this
    have hs : startsWord [48, 120] (48 :: x :: t2 ++ r) = true :=
      startsWord_hex.mpr ⟨x, t2 ++ r, rfl, hx⟩
    have h1 : ¬ startsWord [105, 110, 102] (48 :: x :: t2 ++ r) = true := fun h' => by
      have := startsWord_head h'; exact absurd this (by decide)
    have h2 : ¬ startsWord [110, 97, 110] (48 :: x :: t2 ++ r) = true := fun h' => by
      have := startsWord_head h'; exact absurd this (by decide)
    rw [scanMagWith_eq]
    rw [if_neg h1, if_neg h2, if_pos hs]
    show (match scanNumeral 16 2 4 112 (t2 ++ r) with | some q => R neg q | none => _) = _
    rw [hnum]; rfl
  | decimal hn =>
    rename_i q
    have hb := decimal_bytes hn
    have hnum : scanNumeral 10 10 1 101 t = some q :=
      scanNumeral_longest g10 hpre hn fun p' q' hp' hn' => hmax p' _ hp' (.decimal hn')
    obtain ⟨c, cs, rfl⟩ : ∃ c cs, p = c :: cs := by
      cases p with
      | nil => exact absurd rfl (numeral_ne_nil hn)
      | cons c cs => exact ⟨c, cs, rfl⟩
    obtain ⟨r, rfl⟩ := hpre
    have hc := (hb c (by simp)).2 rfl
    have h1 : ¬ startsWord [105, 110, 102] (c :: cs ++ r) = true := fun h' => hc.1 (startsWord_head h')
    have h2 : ¬ startsWord [110, 97, 110] (c :: cs ++ r) = true := fun h' => hc.2 (startsWord_head h')
    have hhex : (if startsWord [48, 120] (c :: cs ++ r) = true then scanNumeral 16 2 4 112 ((c :: cs ++ r).drop 2)
        else none) = none := by
      split
      · rename_i hs
        obtain ⟨x, t2, ht2, hx⟩ := startsWord_hex.mp hs
        rw [ht2]
        show scanNumeral 16 2 4 112 t2 = none
        by_contra hsome
        obtain ⟨q', hq'⟩ := Option.ne_none_iff_exists'.mp hsome
        obtain ⟨p2, q2, hp2, hne2, hn2⟩ := scanNumeral_exists g16 hq'
        have hlen := hmax (48 :: x :: p2) _ (by
          rw [ht2]
          exact List.cons_prefix_cons.mpr ⟨rfl, List.cons_prefix_cons.mpr ⟨rfl, hp2⟩⟩) (.hex hx hn2)
        have : 1 ≤ p2.length := List.length_pos_iff.mpr hne2
        cases cs with
        | nil => simp at hlen
        | cons d cs =>
          simp only [List.cons_append, List.cons.injEq] at ht2
          have hd := (hb d (by simp)).1
          rw [ht2.2.1] at hd
          exact hd ((isLetter_iff (by decide) x).mpr hx)
      · rfl
    rw [scanMagWith_eq]
    rw [if_neg h1, if_neg h2]
    simp only [hhex, hnum]
    rfl

theorem scanMagWith_none (R : Bool → ℚ → LVal) (neg : Bool) {t : Bytes} (h : ∀ p v, p <+: t → ¬ Subject p v) :
    scanMagWith R neg t = .fin false 0 := by
  have hw1 : ∀ l ∈ ([105, 110, 102] : Bytes), 97 ≤ l ∧ l ≤ 122 := by decide
  have hw2 : ∀ l ∈ ([110, 97, 110] : Bytes), 97 ≤ l ∧ l ≤ 122 := by decide
  have h1 : ¬ startsWord [105, 110, 102] t = true := fun h' => by
    obtain ⟨p, hp, hw⟩ := (startsWord_iff hw1 t).mp h'
    exact h p _ hp (.inf hw)
  have h2 : ¬ startsWord [110, 97, 110] t = true := fun h' => by
    obtain ⟨p, hp, hw⟩ := (startsWord_iff hw2 t).mp h'
    exact h p _ hp (.nan hw)
  have h3 : scanNumeral 10 10 1 101 t = none := by
    by_contra hsome
    obtain ⟨q', hq'⟩ := Option.ne_none_iff_exists'.mp hsome
    obtain ⟨p2, q2, hp2, -, hn2⟩ := scanNumeral_exists g10 hq'
    exact h p2 _ hp2 (.decimal hn2)
  have h4 : (if startsWord [48, 120] t = true then scanNumeral 16 2 4 112 (t.drop 2) else none) = none := by
    split
    · rename_i hs
      obtain ⟨x, t2, rfl, hx⟩ := startsWord_hex.mp hs
      refine absurd (Subject.decimal ⟨[48], [], [], [], 0, 0, rfl, Or.inl ⟨rfl, rfl⟩, by simp, ?_, .none, rfl⟩)
        (h [48] _ (List.cons_prefix_cons.mpr ⟨rfl, List.nil_prefix⟩))
      have : DigitOf 10 48 0 := by unfold DigitOf; decide
      exact Digits.snoc .nil this
    · rfl
  rw [scanMagWith_eq]
  rw [if_neg h1, if_neg h2]
  simp only [h3, h4]

/-! ### White space and sign -/

theorem strtoldWith_text (R : Bool → ℚ → LVal) {s t : Bytes} {neg : Bool} (h : FloatText s neg t) :
    strtoldWith R s = scanMagWith R neg t := by
  obtain ⟨u, ws, sg, hc, rfl, hw, hsg⟩ := h
  unfold strtoldWith
  rw [cstr_eq hc, skipSpace_append _ _ hw]
  rcases hsg with ⟨rfl, rfl, hh⟩ | ⟨rfl, rfl⟩ | ⟨rfl, rfl⟩
  · rw [List.nil_append]
    cases t with
    | nil => rfl
    | cons c t =>
      obtain ⟨a, b, d⟩ := hh c rfl
      rw [skipSpace_of_head a]
      split
      · rename_i heq; exact absurd (List.cons.inj heq).1 d
      · rename_i heq; exact absurd (List.cons.inj heq).1 b
      · rfl
  · rw [List.singleton_append, skipSpace_of_head (by unfold IsSpace; decide)]; rfl
  · rw [List.singleton_append, skipSpace_of_head (by unfold IsSpace; decide)]; rfl

theorem scanMag_longest (F : FpFormat) (neg : Bool) {t p : Bytes} {v : FloatVal} (h : Longest t p v) :
    scanMag F neg t = toLVal F neg v := scanMagWith_longest F.round neg h

theorem scanMag_none (F : FpFormat) (neg : Bool) {t : Bytes} (h : ∀ p v, p <+: t → ¬ Subject p v) :
    scanMag F neg t = .fin false 0 := scanMagWith_none F.round neg h

theorem strtold_text (F : FpFormat) {s t : Bytes} {neg : Bool} (h : FloatText s neg t) :
    strtold F s = scanMag F neg t := strtoldWith_text F.round h

/-- C61.  `lexi<long double>(s)` is the nearest number to the value of the longest acceptable beginning of the text (after
white space and a sign), and `+0` when there is none.  Never an error. -/
theorem C61_extract (F : FpFormat) (hp : 2 ≤ F.p) (he : F.emin ≤ (F.emax : ℤ) - F.p) (s : Bytes) (neg : Bool)
    (t : Bytes) (h : FloatText s neg t) :
    (∀ p v, Longest t p v → Reads F neg v (extractLongDouble F s)) ∧
    ((∀ p v, p <+: t → ¬ Subject p v) → extractLongDouble F s = .fin false 0) := by
  unfold extractLongDouble
  rw [strtold_text F h]
  constructor
  · intro p v hl
    rw [scanMag_longest F neg hl]
    exact toLVal_reads F hp he neg hl.2.1
  · exact scanMag_none F neg

/-- There is a longest acceptable beginning, or none at all. -/
theorem longest_or_none (t : Bytes) : (∃ p v, Longest t p v) ∨ ∀ p v, p <+: t → ¬ Subject p v := by
  by_contra hc
  push Not at hc
  obtain ⟨hno, p, v, hp, hs⟩ := hc
  -- a longest one exists: lengths are bounded by the length of `t`
  have key : ∀ n p v, p <+: t → Subject p v → t.length - p.length ≤ n → False := by
    intro n
    induction n with
    | zero =>
      intro p v hp hs hn
      refine hno p v ⟨hp, hs, fun p' v' hp' _ => ?_⟩
      have := hp'.length_le
      omega
    | succ n ih =>
      intro p v hp hs hn
      refine hno p v ⟨hp, hs, fun p' v' hp' hs' => ?_⟩
      by_contra hlt
      push Not at hlt
      have := hp'.length_le
      exact ih p' v' hp' hs' (by omega)
  exact key _ p v hp hs le_rfl

/-- C61.  The case distinction is complete: every byte string has such a white space and sign part, and what follows
either starts with an acceptable text or does not. -/
theorem C61_total (s : Bytes) :
    ∃ neg t, FloatText s neg t ∧ ((∃ p v, Longest t p v) ∨ ∀ p v, p <+: t → ¬ Subject p v) := by
  have split : ∃ neg t, FloatText s neg t := by
    obtain ⟨ws, h1, h2⟩ := skipSpace_split (cstr s)
    have hns : ∀ c, (skipSpace (cstr s)).head? = some c → ¬ IsSpace c := by
      generalize cstr s = u
      induction u with
      | nil => intro c hc; simp [skipSpace] at hc
      | cons a u ih =>
        intro c hc
        rw [skipSpace] at hc
        split at hc
        · exact ih c hc
        · rename_i hsp
          simp only [List.head?_cons, Option.some.injEq] at hc
          rw [← hc, ← isspace_iff]; exact hsp
    cases hk : skipSpace (cstr s) with
    | nil =>
      exact ⟨false, [], cstr s, ws, [], cstring_cstr s, by rw [h1, hk]; simp, h2, Or.inl ⟨rfl, rfl, by simp⟩⟩
    | cons c r =>
      by_cases c1 : c = 43
      · exact ⟨false, r, cstr s, ws, [43], cstring_cstr s, by rw [h1, hk, c1]; simp, h2, Or.inr (Or.inl ⟨rfl, rfl⟩)⟩
      · by_cases c2 : c = 45
        · exact ⟨true, r, cstr s, ws, [45], cstring_cstr s, by rw [h1, hk, c2]; simp, h2, Or.inr (Or.inr ⟨rfl, rfl⟩)⟩
        · refine ⟨false, c :: r, cstr s, ws, [], cstring_cstr s, by rw [h1, hk]; simp, h2, Or.inl ⟨rfl, rfl, ?_⟩⟩
          intro b hb
          have hb' := hns b (by rw [hk]; exact hb)
          simp only [List.head?_cons, Option.some.injEq] at hb
          subst hb
          exact ⟨hb', c1, c2⟩
  obtain ⟨neg, t, ht⟩ := split
  exact ⟨neg, t, ht, longest_or_none t⟩

/-- What the conversion to `double` and `float` starts from. -/
theorem lexi_longest (F : FpFormat) {s t p : Bytes} {neg : Bool} {v : FloatVal} (h : FloatText s neg t)
    (hl : Longest t p v) :
    lexiDouble F s = (toLVal F neg v).toDouble ∧ lexiFloat F s = (toLVal F neg v).toFloat := by
  unfold lexiDouble lexiFloat extractLongDouble
  rw [strtold_text F h, scanMag_longest F neg hl]
  exact ⟨rfl, rfl⟩

/-- C61.  `lexi<double>` of any text, on every platform whose `long double` contains the doubles: a NaN word reads as NaN,
an infinity word as the infinity, a numeral (decimal or hexadecimal) as one of the two doubles next to its value, each with the
sign of the text; text without a number reads as `+0`. -/
theorem C61_double (F : FpFormat) (hp : 53 ≤ F.p) (he : F.emin ≤ -1074) (hmax : 1024 ≤ F.emax) (s : Bytes) (neg : Bool)
    (t : Bytes) (h : FloatText s neg t) :
    (∀ p, Longest t p .nan → DNaN (lexiDouble F s)) ∧
    (∀ p, Longest t p .inf → DInfinite (lexiDouble F s) ∧ (dNeg (lexiDouble F s) ↔ neg = true)) ∧
    (∀ p q, Longest t p (.num q) →
      (q ≤ dMax → Faithful (if neg then -q else q) (lexiDouble F s)) ∧
      (dMax < q → DInfinite (lexiDouble F s) ∨ DFinite (lexiDouble F s) ∧ |dValue (lexiDouble F s)| = dMax) ∧
      (dNeg (lexiDouble F s) ↔ neg = true)) ∧
    ((∀ p v, p <+: t → ¬ Subject p v) → lexiDouble F s = 0) := by
  refine ⟨fun p hl => ?_, fun p hl => ?_, fun p q hl => ?_, fun hn => ?_⟩
  · rw [(lexi_longest F h hl).1]
    show DNaN (LVal.nan).toDouble
    decide +kernel
  · rw [(lexi_longest F h hl).1]
    show DInfinite (LVal.inf neg).toDouble ∧ (dNeg (LVal.inf neg).toDouble ↔ neg = true)
    cases neg
    · exact ⟨by decide +kernel, by decide +kernel⟩
    · exact ⟨by decide +kernel, by decide +kernel⟩
  · rw [(lexi_longest F h hl).1]
    exact round_faithful F hp he hmax neg (Subject.nonneg hl.2.1)
  · unfold lexiDouble extractLongDouble
    rw [strtold_text F h, scanMag_none F neg hn]
    decide +kernel

/-- C61.  Where `long double` is `double`, the numeral reads as the nearest double, ties to even, and overflows to the
infinity exactly from the midpoint beyond the largest double on. -/
theorem C61_double_nearest (s : Bytes) (neg : Bool) (t : Bytes) (h : FloatText s neg t) (p : Bytes) (q : ℚ)
    (hl : Longest t p (.num q)) :
    (q < dOverflow → NearestEven (if neg then -q else q) (lexiDouble .binary64 s)) ∧
    (dOverflow ≤ q → DInfinite (lexiDouble .binary64 s)) ∧ (dNeg (lexiDouble .binary64 s) ↔ neg = true) := by
  rw [(lexi_longest .binary64 h hl).1]
  have := round_nearest neg (Subject.nonneg hl.2.1)
  refine ⟨fun hq => (this.1 hq).1, fun hq => (this.2 hq).1, ?_⟩
  rcases lt_or_ge q dOverflow with hq | hq
  · exact (this.1 hq).2
  · exact (this.2 hq).2

/-- C61.  The same for `lexi<float>`, which is rounded by way of `long double`. -/
theorem C61_float (F : FpFormat) (hp : 24 ≤ F.p) (he : F.emin ≤ -149) (hmax : 128 ≤ F.emax) (s : Bytes) (neg : Bool)
    (t : Bytes) (h : FloatText s neg t) :
    (∀ p, Longest t p .nan → FNaN (lexiFloat F s)) ∧
    (∀ p, Longest t p .inf → FInfinite (lexiFloat F s) ∧ (fNeg (lexiFloat F s) ↔ neg = true)) ∧
    (∀ p q, Longest t p (.num q) →
      (q ≤ fMax → FFaithful (if neg then -q else q) (lexiFloat F s)) ∧
      (fMax < q → FInfinite (lexiFloat F s) ∨ FFinite (lexiFloat F s) ∧ |fValue (lexiFloat F s)| = fMax) ∧
      (fNeg (lexiFloat F s) ↔ neg = true)) ∧
    ((∀ p v, p <+: t → ¬ Subject p v) → lexiFloat F s = 0) := by
  refine ⟨fun p hl => ?_, fun p hl => ?_, fun p q hl => ?_, fun hn => ?_⟩
  · rw [(lexi_longest F h hl).2]
    show FNaN (LVal.nan).toFloat
    decide +kernel
  · rw [(lexi_longest F h hl).2]
    show FInfinite (LVal.inf neg).toFloat ∧ (fNeg (LVal.inf neg).toFloat ↔ neg = true)
    cases neg
    · exact ⟨by decide +kernel, by decide +kernel⟩
    · exact ⟨by decide +kernel, by decide +kernel⟩
  · rw [(lexi_longest F h hl).2]
    exact fround_faithful F hp he hmax neg (Subject.nonneg hl.2.1)
  · unfold lexiFloat extractLongDouble
    rw [strtold_text F h, scanMag_none F neg hn]
    decide +kernel

/-- C61.  Reading preserves order between any two numerals, of any forms. -/
theorem C61_monotone (F : FpFormat) (s s' : Bytes) (neg neg' : Bool) (t t' p p' : Bytes) (q q' : ℚ)
    (h : FloatText s neg t) (h' : FloatText s' neg' t') (hl : Longest t p (.num q)) (hl' : Longest t' p' (.num q'))
    (hle : (if neg then -q else q) ≤ if neg' then -q' else q') :
    (53 ≤ F.p → DLe (lexiDouble F s) (lexiDouble F s')) ∧ (24 ≤ F.p → FLe (lexiFloat F s) (lexiFloat F s')) := by
  rw [(lexi_longest F h hl).1, (lexi_longest F h' hl').1, (lexi_longest F h hl).2, (lexi_longest F h' hl').2]
  exact ⟨fun hp => round_monotone F hp neg neg' (Subject.nonneg hl.2.1) (Subject.nonneg hl'.2.1) hle,
    fun hp => fround_monotone F hp neg neg' (Subject.nonneg hl.2.1) (Subject.nonneg hl'.2.1) hle⟩

/-! ### Inhabited hypotheses -/

/-- `0x1.8P+1` is three. -/
theorem three_subject : Subject (ascii "0x1.8P+1") (.num 3) := by
  have d1 : DigitOf 16 49 1 := by unfold DigitOf; decide
  have d8 : DigitOf 16 56 8 := by unfold DigitOf; decide
  have e1 : DigitOf 10 49 1 := by unfold DigitOf; decide
  refine .hex (x := 120) (t := ascii "1.8P+1") (Or.inl rfl) ⟨[49], [46], [56], [80, 43, 49], 24, 1, by decide +kernel,
    Or.inr rfl, by simp, Digits.snoc (Digits.snoc .nil d1) d8, ?_, by norm_num⟩
  exact .pos (c := 80) (sg := [43]) (ds := [49]) (n := 1) (Or.inr rfl) (Or.inr rfl) (by simp) (Digits.snoc .nil e1)

/-- `"\t -0x1.8P+1"` after white space and sign is that numeral, and nothing longer. -/
example : FloatText (ascii "\t -0x1.8P+1") true (ascii "0x1.8P+1") ∧ Longest (ascii "0x1.8P+1") (ascii "0x1.8P+1") (.num 3) := by
  refine ⟨⟨ascii "\t -0x1.8P+1", ascii "\t ", [45], ?_, by decide +kernel, ?_, Or.inr (Or.inr ⟨rfl, rfl⟩)⟩,
    List.prefix_rfl, three_subject, fun p' _ hp _ => hp.length_le⟩
  · have : ascii "\t -0x1.8P+1" = cstr (ascii "\t -0x1.8P+1") := by decide +kernel
    rw [this]
    conv => arg 1; rw [← this]
    exact cstring_cstr _
  · unfold IsSpace; decide +kernel

/-- Text without a number. -/
example : ∀ p v, p <+: ascii "x" → ¬ Subject p v := by
  have hx : ascii "x" = [120] := by decide +kernel
  intro p v hp hs
  rw [hx] at hp
  have hp' : p = [] ∨ p = [120] := by
    cases p with
    | nil => exact Or.inl rfl
    | cons c p =>
      obtain ⟨h1, h2⟩ := List.cons_prefix_cons.mp hp
      exact Or.inr (by rw [h1, List.prefix_nil.mp h2])
  have len : p.length ≤ 1 := by rcases hp' with rfl | rfl <;> simp
  cases hs with
  | decimal h =>
    rcases hp' with rfl | rfl
    · exact numeral_ne_nil h rfl
    · exact (decimal_bytes h 120 (by simp)).1 (by decide)
  | hex _ _ => simp at len
  | inf h => have := List.Forall₂.length_eq h; simp at this; omega
  | infinity h => have := List.Forall₂.length_eq h; simp at this; omega
  | nan h => have := List.Forall₂.length_eq h; simp at this; omega
  | nanChars h _ => have := List.Forall₂.length_eq h; simp at this len; omega

example : lexiDouble .x87 (ascii "\t -0x1.8P+1z") = 0xC008000000000000 := by decide +kernel
example : lexiDouble .binary64 (ascii " +.5e1xyz") = 0x4014000000000000 := by decide +kernel
example : lexiDouble .binary64 (ascii "1e+") = 0x3FF0000000000000 := by decide +kernel
example : lexiFloat .x87 (ascii "-iNfinit") = 0xFF800000 := by decide +kernel
example : lexiDouble .binary64 (ascii "0x") = 0 := by decide +kernel
example : lexiDouble .binary64 (ascii "- 1") = 0 := by decide +kernel

end Lexi
