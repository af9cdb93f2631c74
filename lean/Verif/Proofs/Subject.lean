import Verif.Proofs.Strtold
import Verif.Spec.FloatSubject

/-! # `strtold` reads the longest subject sequence -/

namespace Lexi
open Spec Soft

/-! ### Digits -/

theorem digitVal_iff {base : ℕ} (hb : base = 10 ∨ base = 16) (c : UInt8) (v : ℕ) :
    digitVal base c = some v ↔ DigitOf base c v := by
  have key : ∀ c : UInt8, ∀ v < 16, (digitVal 10 c = some v ↔ DigitOf 10 c v) ∧
      (digitVal 16 c = some v ↔ DigitOf 16 c v) := by
    unfold DigitOf
    refine forall_byte ?_; decide +kernel
  have big : ¬ v < 16 → (digitVal base c ≠ some v ∧ ¬ DigitOf base c v) := by
    intro h
    constructor
    · unfold digitVal
      dsimp only
      intro hc
      obtain ⟨h1, h2⟩ := Option.ite_none_right_eq_some.mp hc
      simp only [Option.some.injEq] at h2
      rw [h2] at h1
      omega
    · unfold DigitOf; omega
  by_cases h : v < 16
  · rcases hb with rfl | rfl
    · exact (key c v h).1
    · exact (key c v h).2
  · have := big h
    exact ⟨fun a => absurd a this.1, fun a => absurd a this.2⟩

theorem isDig_iff' {base : ℕ} (hb : base = 10 ∨ base = 16) (c : UInt8) :
    isDig base c = true ↔ ∃ v, DigitOf base c v := by
  unfold isDig
  rw [Option.isSome_iff_exists]
  exact exists_congr fun v => digitVal_iff hb c v

theorem digitsNat_snoc (base : ℕ) (ds : Bytes) (c : UInt8) :
    digitsNat base (ds ++ [c]) = base * digitsNat base ds + (digitVal base c).getD 0 := by
  unfold digitsNat
  rw [List.foldl_append]; rfl

theorem digits_iff {base : ℕ} (hb : base = 10 ∨ base = 16) (ds : Bytes) (n : ℕ) :
    Digits base ds n ↔ (∀ c ∈ ds, isDig base c = true) ∧ n = digitsNat base ds := by
  constructor
  · intro h
    induction h with
    | nil => exact ⟨by simp, rfl⟩
    | snoc h hc ih =>
      obtain ⟨h1, h2⟩ := ih
      refine ⟨fun c' hc' => ?_, ?_⟩
      · rcases List.mem_append.mp hc' with h' | h'
        · exact h1 _ h'
        · rw [List.mem_singleton.mp h']; exact (isDig_iff' hb _).mpr ⟨_, hc⟩
      · rw [digitsNat_snoc, (digitVal_iff hb _ _).mpr hc, h2, Nat.mul_comm]; rfl
  · rintro ⟨h, rfl⟩
    induction ds using List.reverseRecOn with
    | nil => exact .nil
    | append_singleton ds c ih =>
      obtain ⟨v, hv⟩ := (isDig_iff' hb c).mp (h c (by simp))
      rw [digitsNat_snoc, (digitVal_iff hb _ _).mpr hv, Nat.mul_comm]
      exact .snoc (ih fun c' hc' => h c' (by simp [hc'])) hv

theorem takeWhile_split {α : Type} (P : α → Bool) (ds r : List α) (h : ∀ b ∈ ds, P b = true)
    (hr : ∀ b, r.head? = some b → P b = false) :
    (ds ++ r).takeWhile P = ds ∧ (ds ++ r).dropWhile P = r := by
  induction ds with
  | nil =>
    cases r with
    | nil => exact ⟨rfl, rfl⟩
    | cons c cs =>
      have := hr c rfl
      simp [this]
  | cons c cs ih =>
    have := ih (fun b hb => h b (by simp [hb]))
    simp only [List.cons_append, List.takeWhile_cons, List.dropWhile_cons, h c (by simp), if_true, this, and_self]

theorem isLetter_iff {l : UInt8} (hl : 97 ≤ l ∧ l ≤ 122) (c : UInt8) : lower c = l ↔ IsLetter l c := by
  have key : ∀ k : Fin 26, ∀ c : Fin 256,
      (lower (UInt8.ofNat c) = UInt8.ofNat (97 + k) ↔ IsLetter (UInt8.ofNat (97 + k)) (UInt8.ofNat c)) := by
    unfold IsLetter
    decide +kernel
  obtain ⟨h1, h2⟩ := hl
  rw [UInt8.le_iff_toNat_le] at h1 h2
  have h3 : (97 : UInt8).toNat = 97 ∧ (122 : UInt8).toNat = 122 := by decide
  have h := key ⟨l.toNat - 97, by omega⟩ ⟨c.toNat, c.toNat_lt⟩
  simp only [UInt8.ofNat_toNat, show 97 + (l.toNat - 97) = l.toNat by omega] at h
  exact h

/-! ### Exponents -/

theorem pow_split_radix {radix : ℕ} (hr : 0 < radix) (m : ℕ) (e : ℤ) :
    (((m * radix ^ e.toNat : Nat) : Rat) / ((radix ^ (-e).toNat : Nat) : Rat)) = (m : ℚ) * (radix : ℚ) ^ e := by
  have hr' : (radix : ℚ) ≠ 0 := by positivity
  rcases le_total 0 e with h | h
  · obtain ⟨k, rfl⟩ := Int.eq_ofNat_of_zero_le h
    simp
  · obtain ⟨k, hk⟩ := Int.eq_ofNat_of_zero_le (by omega : 0 ≤ -e)
    have : e = -(k : ℤ) := by omega
    subst this
    simp [div_eq_mul_inv]

theorem one_digit {d : UInt8} (h : isDig 10 d = true) : ∃ n, Digits 10 [d] n :=
  ⟨_, (digits_iff (Or.inl rfl) [d] _).mpr ⟨by simpa using h, rfl⟩⟩

theorem no_digits {t : Bytes} (ht : ∀ d, t.head? = some d → isDig 10 d = false) :
    digitsNat 10 (t.takeWhile (isDig 10)) = 0 := by
  cases t with
  | nil => rfl
  | cons d t => simp [ht d rfl, digitsNat]

/-- No exponent part at the start of the text: none is read. -/
theorem scanExp_none {marker : UInt8} (hm : 97 ≤ marker ∧ marker ≤ 122) (r : Bytes)
    (h : ∀ ex e, ex <+: r → ExpPart marker ex e → ex = []) : scanExp marker r = 0 := by
  have hd : ∀ {a : Bytes} {t : Bytes} (d : UInt8), r = a ++ t → t.head? = some d → (a ++ [d]) <+: r := by
    intro a t d hr ht
    cases t with
    | nil => simp at ht
    | cons d' t' =>
      simp only [List.head?_cons, Option.some.injEq] at ht
      subst ht
      exact ⟨t', by rw [hr]; simp⟩
  cases r with
  | nil => rfl
  | cons c t =>
    unfold scanExp
    simp only
    split
    · rename_i hc
      have hl := (isLetter_iff hm c).mp hc
      split
      · rename_i t'
        rw [no_digits, Nat.cast_zero, Int.neg_zero]
        intro d hdd
        rw [Bool.eq_false_iff]
        intro hdig
        obtain ⟨n, hn⟩ := one_digit hdig
        have := h _ _ (hd (a := [c, 45]) d rfl hdd) (.neg hl (by simp) hn)
        simp at this
      · rename_i t'
        rw [no_digits, Nat.cast_zero]
        intro d hdd
        rw [Bool.eq_false_iff]
        intro hdig
        obtain ⟨n, hn⟩ := one_digit hdig
        have := h _ _ (hd (a := [c, 43]) d rfl hdd) (.pos (sg := [43]) hl (Or.inr rfl) (by simp) hn)
        simp at this
      · rw [no_digits, Nat.cast_zero]
        intro d hdd
        rw [Bool.eq_false_iff]
        intro hdig
        obtain ⟨n, hn⟩ := one_digit hdig
        have := h _ _ (hd (a := [c]) d rfl hdd) (.pos (sg := []) hl (Or.inl rfl) (by simp) hn)
        simp at this
    · rfl

/-- An exponent part not followed by a digit is read. -/
theorem scanExp_some {marker : UInt8} (hm : 97 ≤ marker ∧ marker ≤ 122) {ex r : Bytes} {e : ℤ}
    (h : ExpPart marker ex e) (hne : ex ≠ []) (hr : ∀ d, r.head? = some d → isDig 10 d = false) :
    scanExp marker (ex ++ r) = e := by
  cases h with
  | none => exact absurd rfl hne
  | @pos c sg ds n hl hsg hds hn =>
    obtain ⟨h1, h2⟩ := (digits_iff (Or.inl rfl) _ _).mp hn
    have hc := (isLetter_iff hm c).mpr hl
    have ht := (takeWhile_split (isDig 10) ds r h1 hr).1
    unfold scanExp
    rcases hsg with rfl | rfl
    · simp only [List.cons_append, List.nil_append, hc, if_true]
      obtain ⟨d, ds', rfl⟩ : ∃ d ds', ds = d :: ds' := by
        cases ds with
        | nil => exact absurd rfl hds
        | cons d ds' => exact ⟨d, ds', rfl⟩
      have hd := h1 d (by simp)
      simp only [List.cons_append] at ht ⊢
      split
      · rename_i heq
        rw [(List.cons.inj heq).1] at hd; exact absurd hd (by decide)
      · rename_i heq
        rw [(List.cons.inj heq).1] at hd; exact absurd hd (by decide)
      · rw [ht, h2]
    · simp only [List.cons_append, List.nil_append, hc, if_true, ht, h2]
  | @neg c ds n hl hds hn =>
    obtain ⟨h1, h2⟩ := (digits_iff (Or.inl rfl) _ _).mp hn
    have hc := (isLetter_iff hm c).mpr hl
    have ht := (takeWhile_split (isDig 10) ds r h1 hr).1
    unfold scanExp
    simp only [List.cons_append, hc, if_true, ht, h2]

/-! ### Numerals -/

theorem Spec.ExpPart.head {marker : UInt8} {ex : Bytes} {e : ℤ} (h : ExpPart marker ex e) (c : UInt8)
    (hc : ex.head? = some c) : IsLetter marker c := by
  cases h with
  | none => simp at hc
  | pos hl => simp only [List.head?_cons, Option.some.injEq] at hc; exact hc ▸ hl
  | neg hl => simp only [List.head?_cons, Option.some.injEq] at hc; exact hc ▸ hl

theorem Spec.Digits.snoc' {base : ℕ} (hb : base = 10 ∨ base = 16) {ds : Bytes} {n : ℕ} (h : Digits base ds n) {c : UInt8}
    (hc : isDig base c = true) : ∃ m, Digits base (ds ++ [c]) m := by
  obtain ⟨v, hv⟩ := (isDig_iff' hb c).mp hc
  exact ⟨_, .snoc h hv⟩

theorem Spec.ExpPart.snoc {marker : UInt8} {ex : Bytes} {e : ℤ} (h : ExpPart marker ex e) (hne : ex ≠ []) {c : UInt8}
    (hc : isDig 10 c = true) : ∃ e', ExpPart marker (ex ++ [c]) e' := by
  cases h with
  | none => exact absurd rfl hne
  | pos hl hsg hds hn =>
    obtain ⟨m, hm⟩ := hn.snoc' (Or.inl rfl) hc
    have := ExpPart.pos hl hsg (by simp) hm
    exact ⟨m, by simpa using this⟩
  | neg hl hds hn =>
    obtain ⟨m, hm⟩ := hn.snoc' (Or.inl rfl) hc
    have := ExpPart.neg hl (by simp) hm
    exact ⟨-m, by simpa using this⟩

/-- The numeral grammars used: decimal and hexadecimal. -/
def Grammar (base radix perDigit : ℕ) (marker : UInt8) : Prop :=
  base = 10 ∧ radix = 10 ∧ perDigit = 1 ∧ marker = 101 ∨ base = 16 ∧ radix = 2 ∧ perDigit = 4 ∧ marker = 112

theorem prefix_cons_head {r : Bytes} {d : UInt8} (h : r.head? = some d) : [d] <+: r := by
  cases r with
  | nil => simp at h
  | cons a b => simp only [List.head?_cons, Option.some.injEq] at h; exact ⟨b, by rw [h]; rfl⟩

/-- The longest numeral at the start of a text is the one read. -/
theorem scanNumeral_longest {base radix perDigit : ℕ} {marker : UInt8} (hg : Grammar base radix perDigit marker)
    {t p : Bytes} {q : ℚ} (hp : p <+: t) (hn : Numeral base radix perDigit marker p q)
    (hmax : ∀ p' q', p' <+: t → Numeral base radix perDigit marker p' q' → p'.length ≤ p.length) :
    scanNumeral base radix perDigit marker t = some q := by
  have hb : base = 10 ∨ base = 16 := by rcases hg with h | h <;> simp [h]
  have hm : 97 ≤ marker ∧ marker ≤ 122 := by
    rcases hg with ⟨-, -, -, rfl⟩ | ⟨-, -, -, rfl⟩ <;> decide
  have hrad : 0 < radix := by rcases hg with h | h <;> omega
  obtain ⟨r, rfl⟩ := hp
  obtain ⟨ip, dot, fp, ex, m, e, rfl, hdot, hne, hd, hex, rfl⟩ := hn
  -- nothing can be appended
  have grow : ∀ a q', a <+: r → Numeral base radix perDigit marker (ip ++ (dot ++ (fp ++ ex)) ++ a) q' → a = [] := by
    intro a q' ha hn
    have := hmax _ _ ((List.prefix_append_right_inj _).mpr ha) hn
    rw [List.length_append] at this
    exact List.length_eq_zero_iff.mp (by omega)
  obtain ⟨hall, hval⟩ := (digits_iff hb _ _).mp hd
  -- marker is no digit
  have hmark : ∀ c, IsLetter marker c → isDig base c = false ∧ c ≠ 46 := by
    have k10 : ∀ c : UInt8, IsLetter 101 c → isDig 10 c = false ∧ c ≠ 46 := by
      unfold IsLetter; refine forall_byte ?_; decide +kernel
    have k16 : ∀ c : UInt8, IsLetter 112 c → isDig 16 c = false ∧ c ≠ 46 := by
      unfold IsLetter; refine forall_byte ?_; decide +kernel
    rcases hg with ⟨rfl, -, -, rfl⟩ | ⟨rfl, -, -, rfl⟩
    · exact k10
    · exact k16
  -- what follows the digits is no digit
  have htail : ∀ c, (ex ++ r).head? = some c → isDig base c = false ∧ (dot = [] → c ≠ 46) := by
    intro c hc
    by_cases he : ex = []
    · subst he
      rw [List.nil_append] at hc
      have hpre := prefix_cons_head hc
      constructor
      · rw [Bool.eq_false_iff]
        intro hdig
        obtain ⟨m', hm'⟩ := hd.snoc' hb hdig
        rcases hdot with ⟨rfl, rfl⟩ | rfl
        · have := grow [c] _ hpre ⟨ip ++ [c], [], [], [], m', 0, by simp, Or.inl ⟨rfl, rfl⟩, by simp, by simpa using hm',
            .none, rfl⟩
          simp at this
        · have := grow [c] _ hpre ⟨ip, [46], fp ++ [c], [], m', 0, by simp, Or.inr rfl, by simp, by simpa using hm',
            .none, rfl⟩
          simp at this
      · rintro rfl rfl
        have hfp : fp = [] := by rcases hdot with ⟨-, h⟩ | h; exact h; simp at h
        subst hfp
        have := grow [46] _ hpre ⟨ip, [46], [], [], m, 0, by simp, Or.inr rfl, by simpa using hne, by simpa using hd,
            .none, rfl⟩
        simp at this
    · have : ex.head? = some c := by
        cases ex with
        | nil => exact absurd rfl he
        | cons a b => simpa using hc
      have := hmark c (hex.head c this)
      exact ⟨this.1, fun _ => this.2⟩
  have hexp : scanExp marker (ex ++ r) = e := by
    by_cases he : ex = []
    · subst he
      have e0 : e = 0 := by
        cases hex; rfl
      rw [e0, List.nil_append]
      apply scanExp_none hm
      intro a e' ha hea
      exact grow a _ ha ⟨ip, dot, fp, a, m, e', by simp, hdot, hne, hd, hea, rfl⟩
    · apply scanExp_some hm hex he
      intro d hdd
      rw [Bool.eq_false_iff]
      intro hdig
      obtain ⟨e', he'⟩ := hex.snoc he hdig
      have := grow [d] _ (prefix_cons_head hdd) ⟨ip, dot, fp, ex ++ [d], m, e', by simp, hdot, hne, hd, he', rfl⟩
      simp at this
  have hip : ∀ c ∈ ip, isDig base c = true := fun c hc => hall c (by simp [hc])
  have hfpd : ∀ c ∈ fp, isDig base c = true := fun c hc => hall c (by simp [hc])
  have hpoint : isDig base 46 = false := by rcases hb with rfl | rfl <;> decide
  unfold scanNumeral
  rcases hdot with ⟨rfl, rfl⟩ | rfl
  · simp only [List.nil_append, List.append_nil, List.append_assoc] at hne hval ⊢
    obtain ⟨h1, h2⟩ := takeWhile_split (isDig base) ip (ex ++ r) hip (fun c hc => (htail c hc).1)
    have hie : ip.isEmpty = false := by simpa using hne
    have hfr : scanFrac base true (ex ++ r) = ([], ex ++ r) := by
      unfold scanFrac
      split
      · rename_i r' heq
        exact absurd rfl ((htail 46 (by rw [heq]; rfl)).2 rfl)
      · rfl
    simp only [h1, h2, hie, Bool.not_false, hfr, hexp, Bool.false_and, Bool.false_eq_true, if_false, List.append_nil]
    rw [pow_split_radix hrad, ← hval]
  · simp only [List.append_assoc, List.cons_append, List.nil_append]
    obtain ⟨h1, h2⟩ := takeWhile_split (isDig base) ip (46 :: (fp ++ (ex ++ r))) hip
      (fun c hc => by simp only [List.head?_cons, Option.some.injEq] at hc; rw [← hc]; exact hpoint)
    obtain ⟨h3, h4⟩ := takeWhile_split (isDig base) fp (ex ++ r) hfpd (fun c hc => (htail c hc).1)
    have hemp : (ip.isEmpty && fp.isEmpty) = false := by
      rw [Bool.eq_false_iff]
      intro h
      simp only [Bool.and_eq_true, List.isEmpty_iff] at h
      exact hne (by rw [h.1, h.2]; rfl)
    have hfr : scanFrac base (!ip.isEmpty) (46 :: (fp ++ (ex ++ r))) = (fp, ex ++ r) := by
      show (if (!!ip.isEmpty && _) then _ else _) = _
      rw [Bool.not_not, h3, hemp, h4]; rfl
    simp only [h1, h2, hfr, hexp, hemp, Bool.false_eq_true, if_false]
    rw [pow_split_radix hrad, ← hval]

/-- If a numeral is read, the text starts with one. -/
theorem scanNumeral_exists {base radix perDigit : ℕ} {marker : UInt8} (hg : Grammar base radix perDigit marker)
    {t : Bytes} {q : ℚ} (h : scanNumeral base radix perDigit marker t = some q) :
    ∃ p q', p <+: t ∧ p ≠ [] ∧ Numeral base radix perDigit marker p q' := by
  have hb : base = 10 ∨ base = 16 := by rcases hg with h | h <;> simp [h]
  have tw : ∀ r : Bytes, ∀ c ∈ r.takeWhile (isDig base), isDig base c = true :=
    fun r c hc => List.all_eq_true.mp List.all_takeWhile c hc
  by_cases hi : t.takeWhile (isDig base) = []
  · have hdw : t.dropWhile (isDig base) = t := by
      have := List.takeWhile_append_dropWhile (p := isDig base) (l := t)
      rwa [hi, List.nil_append] at this
    unfold scanNumeral at h
    simp only [hi, hdw, List.isEmpty_nil, Bool.not_true, Bool.true_and] at h
    unfold scanFrac at h
    split at h
    · rename_i r
      by_cases hf : r.takeWhile (isDig base) = []
      · simp [hf] at h
      · refine ⟨46 :: r.takeWhile (isDig base), _, ?_, by simp, [], [46], r.takeWhile (isDig base), [], _, 0, by simp,
          Or.inr rfl, by simpa using hf, (digits_iff hb _ _).mpr ⟨by simpa using tw r, rfl⟩, .none, rfl⟩
        exact List.cons_prefix_cons.mpr ⟨rfl, List.takeWhile_prefix _⟩
    · simp at h
  · exact ⟨_, _, List.takeWhile_prefix _, hi, t.takeWhile (isDig base), [], [], [], _, 0, by simp, Or.inl ⟨rfl, rfl⟩,
      by simpa using hi, (digits_iff hb _ _).mpr ⟨by simpa using tw t, rfl⟩, .none, rfl⟩

end Lexi
