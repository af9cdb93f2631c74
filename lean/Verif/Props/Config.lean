import Verif.Spec.Words
import Verif.Props.RoundTrip
import Verif.Props.Subject

/-!
# C107: which configured literals are read back
-/

namespace Lexi
open Spec Soft Dtoa DiyFp

/-! ### bool and null -/

/-- C107: with NUL-free literals, both booleans are read back from their texts, whatever was in the buffer, exactly if
LEXI_TRUE has four bytes and LEXI_FALSE has five. -/
theorem C107_bool (L : Literals) (h0 : 0 ∉ L.true_) (h1 : 0 ∉ L.false_) :
    (∀ junk, junk.length = BOOL_SIZE → ∀ b, ∃ t, stringBool L junk b = .ok t ∧ lexiBool L t = .ok b) ↔
      L.true_.length = 4 ∧ L.false_.length = 5 := by
  have hB : BOOL_SIZE = 6 := rfl
  have c0 : cstr L.true_ = L.true_ := cstr_eq ⟨h0, Or.inl rfl⟩
  have c1 : cstr L.false_ = L.false_ := cstr_eq ⟨h1, Or.inl rfl⟩
  obtain ⟨-, ht, hf⟩ := C51_bool_literals L h0 h1
  constructor
  · intro h
    obtain ⟨z, hz⟩ : ∃ z : Bytes, z.length = BOOL_SIZE := ⟨List.replicate 6 0, rfl⟩
    constructor
    · obtain ⟨t, h2, h3⟩ := h z hz true
      by_cases hl : L.true_.length + 1 ≤ 6
      · simp only [stringBool, formatBool, if_true, strncpyLit_ok z L.true_ h0 (by omega), Res.ok_bind, BoolObj.string,
          BoolObj.data, BoolObj.c_str, BoolObj.size] at h2
        have hlen : t.length = 4 := by
          unfold readN at h2
          split at h2
          · cases h2; simp; omega
          · cases h2
        unfold lexiBool extractBool at h3
        rw [c0, c1] at h3
        split at h3
        · rename_i e; rw [← e]; exact hlen
        · split at h3 <;> cases h3
      · simp [stringBool, formatBool, strncpyLit_ub z L.true_ (by omega)] at h2
    · obtain ⟨t, h2, h3⟩ := h z hz false
      by_cases hl : L.false_.length + 1 ≤ 6
      · simp only [stringBool, formatBool, Bool.false_eq_true, if_false, strncpyLit_ok z L.false_ h1 (by omega),
          Res.ok_bind, BoolObj.string, BoolObj.data, BoolObj.c_str, BoolObj.size] at h2
        have hlen : t.length = 5 := by
          unfold readN at h2
          split at h2
          · cases h2; simp; omega
          · cases h2
        unfold lexiBool extractBool at h3
        rw [c0, c1] at h3
        split at h3
        · cases h3
        · split at h3
          · rename_i e; rw [← e]; exact hlen
          · cases h3
      · simp [stringBool, formatBool, strncpyLit_ub z L.false_ (by omega)] at h2
  · rintro ⟨l1, l2⟩ junk hj b
    cases b
    · refine ⟨_, hf.mpr l2 junk hj, ?_⟩
      unfold lexiBool extractBool
      rw [c0, c1, if_neg (fun e => by rw [e] at l2; omega), if_pos rfl]
    · refine ⟨_, ht.mpr l1 junk hj, ?_⟩
      unfold lexiBool extractBool
      rw [c0, if_pos rfl]

/-- C107: null is read back from its text exactly if LEXI_NULL has four bytes. -/
theorem C107_null (L : Literals) (h0 : 0 ∉ L.null) :
    (∀ junk, junk.length = NULL_SIZE → ∃ t, stringNull L junk = .ok t ∧ lexiNull L t = .ok ()) ↔ L.null.length = 4 := by
  have hB : NULL_SIZE = 5 := rfl
  have c0 : cstr L.null = L.null := cstr_eq ⟨h0, Or.inl rfl⟩
  constructor
  · intro h
    obtain ⟨z, hz⟩ : ∃ z : Bytes, z.length = NULL_SIZE := ⟨List.replicate 5 0, rfl⟩
    obtain ⟨t, h2, h3⟩ := h z hz
    by_cases hl : L.null.length + 1 ≤ 5
    · simp only [stringNull, formatNull, strncpyLit_ok z L.null h0 (by omega), Res.ok_bind, NullObj.string,
        NullObj.data, NullObj.c_str, NullObj.size] at h2
      have hlen : t.length = 4 := by
        unfold readN at h2
        split at h2
        · cases h2; simp; omega
        · cases h2
      unfold lexiNull extractNull at h3
      rw [c0] at h3
      split at h3
      · rename_i e; rw [← e]; exact hlen
      · cases h3
    · simp [stringNull, formatNull, strncpyLit_ub z L.null (by omega)] at h2
  · intro l junk hj
    refine ⟨_, (C51_null_literal L h0).2.mpr l junk hj, ?_⟩
    unfold lexiNull extractNull
    rw [c0]; simp

/-! ### NaN and the infinities -/

theorem lower_word {w : Bytes} (hw : ∀ l ∈ w, 97 ≤ l ∧ l ≤ 122) {p : Bytes} (h : Word w p) (hne : w ≠ []) :
    ∀ c, p.head? = some c → ¬ IsSpace c ∧ c ≠ 43 ∧ c ≠ 45 := by
  have key : ∀ l c : UInt8, 97 ≤ l ∧ l ≤ 122 → IsLetter l c → ¬ IsSpace c ∧ c ≠ 43 ∧ c ≠ 45 := by
    intro l c hl hc
    have h1 : 97 ≤ l.toNat := by have := hl.1; rw [UInt8.le_iff_toNat_le] at this; simpa using this
    have h2 : 65 ≤ c.toNat := by
      rcases hc with rfl | hc <;> omega
    refine ⟨fun hs => ?_, fun e => ?_, fun e => ?_⟩
    · unfold IsSpace at hs
      simp only [List.mem_cons, List.not_mem_nil, or_false] at hs
      rcases hs with rfl | rfl | rfl | rfl | rfl | rfl <;> simp at h2
    · subst e; simp at h2
    · subst e; simp at h2
  intro c hc
  cases h with
  | nil => exact absurd rfl hne
  | cons hh _ =>
    simp only [List.head?_cons, Option.some.injEq] at hc
    subst hc
    exact key _ _ (hw _ (by simp)) hh

theorem signedWord_text {w : Bytes} (hw : ∀ l ∈ w, 97 ≤ l ∧ l ≤ 122) (hne : w ≠ []) {neg : Bool} {s : Bytes} (h0 : 0 ∉ s) :
    SignedWord w neg s ↔ ∃ t, FloatText s neg t ∧ startsWord w t = true := by
  constructor
  · rintro ⟨ws, sg, p, r, hs, hws, hsg, hp⟩
    refine ⟨p ++ r, ⟨s, ws, sg, ⟨h0, Or.inl rfl⟩, hs, hws, ?_⟩, startsWord_prefix hw hp ⟨r, rfl⟩⟩
    rcases hsg with ⟨rfl, rfl | rfl⟩ | ⟨rfl, rfl⟩
    · refine Or.inl ⟨rfl, rfl, ?_⟩
      intro b hb
      cases p with
      | nil => cases hp; exact absurd rfl hne
      | cons c p =>
        exact lower_word hw hp hne b (by simpa using hb)
    · exact Or.inr (Or.inl ⟨rfl, rfl⟩)
    · exact Or.inr (Or.inr ⟨rfl, rfl⟩)
  · rintro ⟨t, ⟨u, ws, sg, hu, hs, hws, hsg⟩, hst⟩
    have hus : s = u := by
      rcases hu.2 with h | ⟨r, h⟩
      · exact h
      · exact absurd (by rw [h]; simp) h0
    obtain ⟨p, ⟨r, rfl⟩, hp⟩ := (startsWord_iff hw t).mp hst
    refine ⟨ws, sg, p, r, by rw [hus, hs], hws, ?_, hp⟩
    rcases hsg with ⟨h1, h2, -⟩ | ⟨h1, h2⟩ | ⟨h1, h2⟩
    · exact Or.inl ⟨h2, Or.inl h1⟩
    · exact Or.inl ⟨h2, Or.inr h1⟩
    · exact Or.inr ⟨h2, h1⟩

theorem subject_nan {p : Bytes} (h : Subject p .nan) : startsWord [110, 97, 110] p = true := by
  cases h with
  | nan hw => exact startsWord_prefix (by decide) hw (List.prefix_refl _)
  | nanChars hw _ => exact startsWord_prefix (by decide) hw ⟨_, rfl⟩

theorem subject_inf {p : Bytes} (h : Subject p .inf) : startsWord [105, 110, 102] p = true := by
  cases h with
  | inf hw => exact startsWord_prefix (by decide) hw (List.prefix_refl _)
  | infinity hw =>
    unfold Word at hw
    rcases hw with _ | ⟨a, _ | ⟨b, _ | ⟨c, r⟩⟩⟩
    exact startsWord_prefix (p := [_, _, _]) (by decide) (.cons a (.cons b (.cons c .nil))) ⟨_, rfl⟩

theorem startsWord_mono {w p t : Bytes} (hw : ∀ l ∈ w, 97 ≤ l ∧ l ≤ 122) (h : startsWord w p = true) (hp : p <+: t) :
    startsWord w t = true := by
  obtain ⟨x, hx, hxw⟩ := (startsWord_iff hw p).mp h
  exact startsWord_prefix hw hxw (hx.trans hp)

/-- What a text is read as, by the word it starts with. -/
theorem word_cases (F : FpFormat) (s : Bytes) (h0 : 0 ∉ s) :
    (NanWord s ∧ strtold F s = .nan) ∨ (¬ NanWord s ∧ ∃ neg, InfWord neg s ∧ strtold F s = .inf neg) ∨
    (¬ NanWord s ∧ (∀ neg, ¬ InfWord neg s) ∧ ∃ neg t, FloatText s neg t ∧
      ((∃ p q, Longest t p (.num q)) ∨ ∀ p v, p <+: t → ¬ Subject p v)) := by
  have hn : ∀ l ∈ ([110, 97, 110] : Bytes), (97 : UInt8) ≤ l ∧ l ≤ 122 := by decide
  have hi : ∀ l ∈ ([105, 110, 102] : Bytes), (97 : UInt8) ≤ l ∧ l ≤ 122 := by decide
  by_cases h1 : NanWord s
  · refine Or.inl ⟨h1, ?_⟩
    obtain ⟨neg, h1⟩ := h1
    obtain ⟨t, ht, hs⟩ := (signedWord_text hn (by simp) h0).mp h1
    have hs' : startsWord [105, 110, 102] t = false := by
      rw [Bool.eq_false_iff]
      intro h
      cases t with
      | nil => simp [startsWord] at h
      | cons c t => have := startsWord_head h; have := startsWord_head hs; simp_all
    rw [strtold_text F ht]
    unfold scanMag
    rw [scanMagWith_eq, hs', hs]
    rfl
  by_cases h2 : ∃ neg, InfWord neg s
  · obtain ⟨neg, h2⟩ := h2
    refine Or.inr (Or.inl ⟨h1, neg, h2, ?_⟩)
    obtain ⟨t, ht, hs⟩ := (signedWord_text hi (by simp) h0).mp h2
    rw [strtold_text F ht]
    unfold scanMag
    rw [scanMagWith_eq, hs]
    rfl
  refine Or.inr (Or.inr ⟨h1, fun neg h => h2 ⟨neg, h⟩, ?_⟩)
  obtain ⟨neg, t, ht, h⟩ := C61_total s
  refine ⟨neg, t, ht, ?_⟩
  rcases h with ⟨p, v, hl⟩ | h
  · cases v with
    | nan =>
      exact absurd ⟨neg, (signedWord_text hn (by simp) h0).mpr ⟨t, ht, startsWord_mono hn (subject_nan hl.2.1) hl.1⟩⟩ h1
    | inf =>
      exact absurd ⟨neg, (signedWord_text hi (by simp) h0).mpr ⟨t, ht, startsWord_mono hi (subject_inf hl.2.1) hl.1⟩⟩ h2
    | num q => exact Or.inl ⟨p, q, hl⟩
  · exact Or.inr h

/-- C107: a NaN is read back from LEXI_NAN exactly if that is a word C reads as NaN. -/
theorem C107_nan (env : Env) (L : Literals) (h0 : 0 ∉ L.nan) (hl : L.nan.length ≤ 29) (F : FpFormat) (hp : 53 ≤ F.p)
    (he : F.emin ≤ -1074) (hmax : 1024 ≤ F.emax) :
    (∀ junk, junk.length = FLOAT_SIZE → ∀ u, DNaN u → ∃ t, stringDouble L env junk u = .ok t ∧ DNaN (lexiDouble F t)) ↔
      NanWord L.nan := by
  have hstr : ∀ junk, junk.length = FLOAT_SIZE → ∀ u, DNaN u → stringDouble L env junk u = .ok L.nan := by
    intro junk hj u hn
    have hF : FLOAT_SIZE = 30 := rfl
    unfold stringDouble formatDouble
    rw [formatLd_nan env _ ((ofDouble_class u).1 hn), stringLit _ _ h0 (by omega)]
    exact readN_prefix _ _
  have key : DNaN (lexiDouble F L.nan) ↔ NanWord L.nan := by
    rcases word_cases F L.nan h0 with ⟨h1, h2⟩ | ⟨h1, neg, -, h2⟩ | ⟨h1, -, neg, t, ht, h3⟩
    · refine ⟨fun _ => h1, fun _ => ?_⟩
      unfold lexiDouble extractLongDouble; rw [h2]; decide +kernel
    · refine ⟨fun h => ?_, fun h => absurd h h1⟩
      have hi : DInfinite (lexiDouble F L.nan) := by
        unfold lexiDouble extractLongDouble; rw [h2]; exact (inf_class neg).1
      exact absurd hi.2 h.2
    · refine ⟨fun h => ?_, fun h => absurd h h1⟩
      obtain ⟨-, -, c3, c4⟩ := C61_double F hp he hmax L.nan neg t ht
      rcases h3 with ⟨p, q, hlg⟩ | h3
      · obtain ⟨d1, d2, -⟩ := c3 p q hlg
        rcases le_or_gt q dMax with hq | hq
        · exact absurd h.1 (d1 hq).1
        · rcases d2 hq with h' | ⟨h', -⟩
          · exact absurd h'.2 h.2
          · exact absurd h.1 h'
      · rw [c4 h3] at h; exact absurd h (by decide +kernel)
  constructor
  · intro h
    obtain ⟨t, h1, h2⟩ := h (List.replicate FLOAT_SIZE 0) (by simp) 0x7FF8000000000000 (by decide +kernel)
    rw [hstr _ (by simp) _ (by decide +kernel)] at h1
    cases h1
    exact key.mp h2
  · intro h junk hj u hn
    exact ⟨_, hstr junk hj u hn, key.mpr h⟩

theorem dinf_bits (u : UInt64) (h : DInfinite u) (neg : Bool) (hn : dNeg u ↔ neg = true) :
    u = if neg then 0xFFF0000000000000 else 0x7FF0000000000000 := by
  obtain ⟨h1, h2⟩ := h
  unfold dExp at h1; unfold dFrac at h2
  unfold dNeg at hn
  have hl := u.toNat_lt
  cases neg
  · simp only [Bool.false_eq_true, iff_false] at hn
    apply UInt64.toNat_inj.mp
    rw [if_neg (by simp), show (0x7FF0000000000000 : UInt64).toNat = 9218868437227405312 by decide]; omega
  · simp only [iff_true] at hn
    apply UInt64.toNat_inj.mp
    rw [if_pos rfl, show (0xFFF0000000000000 : UInt64).toNat = 18442240474082181120 by decide]; omega

/-- C107: where `long double` is `double`, an infinity is read back from its literal exactly if that is the word of the
right sign or starts with a numeral of the right sign at or beyond the rounding threshold. -/
theorem C107_infinity (env : Env) (L : Literals) (neg : Bool) (lit : Bytes)
    (hlit : lit = if neg then L.negInfinity else L.infinity) (h0 : 0 ∉ lit) (hl : lit.length ≤ 29) :
    (∀ junk, junk.length = FLOAT_SIZE → ∀ u, DInfinite u → (dNeg u ↔ neg = true) →
      ∃ t, stringDouble L env junk u = .ok t ∧ lexiDouble .binary64 t = u) ↔
      InfWord neg lit ∨ ∃ t p q, FloatText lit neg t ∧ Longest t p (.num q) ∧ dOverflow ≤ q := by
  have hstr : ∀ junk, junk.length = FLOAT_SIZE → ∀ u, DInfinite u → (dNeg u ↔ neg = true) →
      stringDouble L env junk u = .ok lit := by
    intro junk hj u hi hn
    have hF : FLOAT_SIZE = 30 := rfl
    have e := (ofDouble_class u).2 (fun h => h.2 hi.2)
    unfold stringDouble formatDouble
    rw [formatLd_inf env _ (by rw [e]; exact hi), e]
    have : (if dNeg u then L.negInfinity else L.infinity) = lit := by
      rw [hlit]; cases neg <;> simp_all
    by_cases hd : dNeg u
    · simp only [hd, if_true] at this ⊢
      rw [this, stringLit _ _ h0 (by omega)]
      exact readN_prefix _ _
    · simp only [hd, if_false] at this ⊢
      rw [this, stringLit _ _ h0 (by omega)]
      exact readN_prefix _ _
  have key : (DInfinite (lexiDouble .binary64 lit) ∧ (dNeg (lexiDouble .binary64 lit) ↔ neg = true)) ↔
      InfWord neg lit ∨ ∃ t p q, FloatText lit neg t ∧ Longest t p (.num q) ∧ dOverflow ≤ q := by
    constructor
    · rintro ⟨h1, h2⟩
      rcases word_cases .binary64 lit h0 with ⟨-, h3⟩ | ⟨-, neg', h3, h4⟩ | ⟨-, -, neg', t, ht, h3⟩
      · unfold lexiDouble extractLongDouble at h1
        rw [h3] at h1
        exact absurd h1 (by decide +kernel)
      · left
        have := (inf_class neg').2
        unfold lexiDouble extractLongDouble at h2
        rw [h4, this] at h2
        have : neg' = neg := by cases neg <;> cases neg' <;> simp_all
        rwa [this] at h3
      · rcases h3 with ⟨p, q, hlg⟩ | h3
        · right
          obtain ⟨c1, c2, c3⟩ := C61_double_nearest lit neg' t ht p q hlg
          have : neg' = neg := by
            rw [c3] at h2
            cases neg <;> cases neg' <;> simp_all
          subst this
          refine ⟨t, p, q, ht, hlg, ?_⟩
          by_contra hq
          exact (c1 (not_le.mp hq)).1 h1.1
        · have := (C61_double .binary64 (by decide) (by decide) (by decide) lit neg' t ht).2.2.2 h3
          rw [this] at h1
          exact absurd h1 (by decide +kernel)
    · rintro (h | ⟨t, p, q, ht, hlg, hq⟩)
      · have hi : ∀ l ∈ ([105, 110, 102] : Bytes), (97 : UInt8) ≤ l ∧ l ≤ 122 := by decide
        obtain ⟨t, ht, hs⟩ := (signedWord_text hi (by simp) h0).mp h
        have : strtold .binary64 lit = .inf neg := by
          rw [strtold_text _ ht]
          unfold scanMag
          rw [scanMagWith_eq, hs]
          rfl
        unfold lexiDouble extractLongDouble
        rw [this]
        exact inf_class neg
      · obtain ⟨-, c2, c3⟩ := C61_double_nearest lit neg t ht p q hlg
        exact ⟨c2 hq, c3⟩
  constructor
  · intro h
    have hb : ∀ b : Bool, DInfinite (if b then 0xFFF0000000000000 else 0x7FF0000000000000) ∧
        (dNeg (if b then 0xFFF0000000000000 else 0x7FF0000000000000) ↔ b = true) := by decide +kernel
    obtain ⟨b1, b2⟩ := hb neg
    obtain ⟨t, h1, h2⟩ := h (List.replicate FLOAT_SIZE 0) (by simp) _ b1 b2
    rw [hstr _ (by simp) _ b1 b2] at h1
    cases h1
    rw [h2] at key
    exact key.mp ⟨b1, b2⟩
  · intro h junk hj u hu hn
    refine ⟨_, hstr junk hj u hu hn, ?_⟩
    obtain ⟨k1, k2⟩ := key.mpr h
    rw [dinf_bits _ k1 neg k2, ← dinf_bits u hu neg hn]

/-! ### NaN and JSON -/

/-- A text whose value starts with one of these is not JSON. -/
def Refused (x : Bytes) : Prop :=
  (∃ c t, x = c :: t ∧ (c = 11 ∨ c = 12 ∨ c = 43)) ∨ (∃ c t, x = 45 :: c :: t ∧ (c = 110 ∨ c = 78)) ∨
    ∃ c d t, x = c :: d :: t ∧ (c = 110 ∨ c = 78) ∧ (d = 97 ∨ d = 65)

theorem readNumber_refused {x : Bytes} (h : Refused x) : readNumber x = none := by
  have hd : ∀ c : UInt8, c = 11 ∨ c = 12 ∨ c = 43 ∨ c = 110 ∨ c = 78 → ∀ t, readDigits (c :: t) = ([], c :: t) := by
    rintro c (rfl | rfl | rfl | rfl | rfl) t <;> rw [readDigits, if_neg (by decide)]
  have hm : ∀ c : UInt8, c ≠ 45 → ∀ t, readMinus (c :: t) = (false, c :: t) := fun c hc t => by
    rw [readMinus, if_neg hc]
  have key : readInt x = none := by
    unfold readInt
    rcases h with ⟨c, t, rfl, hc⟩ | ⟨c, t, rfl, hc⟩ | ⟨c, d, t, rfl, hc, -⟩
    · rw [hm c (by rcases hc with rfl | rfl | rfl <;> decide), hd c (by tauto)]; simp
    · rw [readMinus, if_pos rfl, hd c (by tauto)]; simp
    · rw [hm c (by rcases hc with rfl | rfl <;> decide), hd c (by tauto)]; simp
  unfold readNumber
  rw [key]

theorem readLiteral_refused {x : Bytes} (h : Refused x) : readLiteral x = none := by
  rcases h with ⟨c, t, rfl, hc⟩ | ⟨c, t, rfl, hc⟩ | ⟨c, d, t, rfl, hc, hd⟩
  · rcases hc with rfl | rfl | rfl <;> rfl
  · rfl
  · rcases hc with rfl | rfl <;> rcases hd with rfl | rfl <;> rfl

theorem readValue_refused {x : Bytes} (h : Refused (skipWs x)) (f : ℕ) : readValue f x = none := by
  cases f with
  | zero => rfl
  | succ f =>
    have h1 := readLiteral_refused h
    have h2 := readNumber_refused h
    rw [readValue]
    split
    · rename_i t he
      rw [he] at h
      rcases h with ⟨c, t, e, hc⟩ | ⟨c, t, e, hc⟩ | ⟨c, d, t, e, hc, hd⟩ <;> simp only [List.cons.injEq] at e
      · rcases hc with rfl | rfl | rfl <;> exact absurd e.1 (by decide)
      · exact absurd e.1 (by decide)
      · rcases hc with rfl | rfl <;> exact absurd e.1 (by decide)
    · rename_i t he
      rw [he] at h
      rcases h with ⟨c, t, e, hc⟩ | ⟨c, t, e, hc⟩ | ⟨c, d, t, e, hc, hd⟩ <;> simp only [List.cons.injEq] at e
      · rcases hc with rfl | rfl | rfl <;> exact absurd e.1 (by decide)
      · exact absurd e.1 (by decide)
      · rcases hc with rfl | rfl <;> exact absurd e.1 (by decide)
    · rename_i t he
      rw [he] at h
      rcases h with ⟨c, t, e, hc⟩ | ⟨c, t, e, hc⟩ | ⟨c, d, t, e, hc, hd⟩ <;> simp only [List.cons.injEq] at e
      · rcases hc with rfl | rfl | rfl <;> exact absurd e.1 (by decide)
      · exact absurd e.1 (by decide)
      · rcases hc with rfl | rfl <;> exact absurd e.1 (by decide)
    · rw [h1, h2]; rfl

/-- C107: nothing C reads as NaN is JSON. -/
theorem C107_nan_not_json (s : Bytes) (h : NanWord s) : readJson s = none := by
  obtain ⟨neg, ws, sg, p, r, rfl, hws, hsg, hp⟩ := h
  obtain ⟨a, b, c, rfl, ha, hb⟩ : ∃ a b c, p = [a, b, c] ∧ (a = 110 ∨ a = 78) ∧ (b = 97 ∨ b = 65) := by
    have hl : ∀ l c : UInt8, IsLetter l c → l = 110 ∨ l = 97 → (l = 110 → c = 110 ∨ c = 78) ∧ (l = 97 → c = 97 ∨ c = 65) := by
      rintro l c (rfl | h) hl
      · exact ⟨fun h => Or.inl h, fun h => Or.inl h⟩
      · refine ⟨?_, ?_⟩ <;> rintro rfl <;> right <;> apply UInt8.toNat_inj.mp <;> simp at h ⊢ <;> omega
    unfold Word at hp
    rcases hp with _ | ⟨a, _ | ⟨b, _ | ⟨c, _ | _⟩⟩⟩
    exact ⟨_, _, _, rfl, (hl _ _ a (by decide)).1 rfl, (hl _ _ b (by decide)).2 rfl⟩
  have hx : Refused (skipWs (sg ++ ([a, b, c] ++ r))) := by
    rcases hsg with ⟨-, rfl | rfl⟩ | ⟨-, rfl⟩
    · rcases ha with rfl | rfl <;> exact Or.inr (Or.inr ⟨_, _, _, rfl, by decide, hb⟩)
    · exact Or.inl ⟨_, _, rfl, by decide⟩
    · exact Or.inr (Or.inl ⟨_, _, rfl, ha⟩)
  have hs : Refused (skipWs (ws ++ (sg ++ ([a, b, c] ++ r)))) := by
    induction ws with
    | nil => exact hx
    | cons w ws ih =>
      have hw := hws w (by simp)
      have ih := ih fun b hb => hws b (by simp [hb])
      unfold IsSpace at hw
      simp only [List.mem_cons, List.not_mem_nil, or_false] at hw
      rw [List.cons_append, skipWs]
      split
      · exact ih
      · rename_i hn
        exact Or.inl ⟨w, _, rfl, by tauto⟩
  unfold readJson
  rw [readValue_refused hs]

/-- C107: no configuration writes every NaN as JSON that is read back as a NaN. -/
theorem C107_no_json_nan (env : Env) (L : Literals) (h0 : 0 ∉ L.nan) (hl : L.nan.length ≤ 29) (F : FpFormat)
    (hp : 53 ≤ F.p) (he : F.emin ≤ -1074) (hmax : 1024 ≤ F.emax) :
    ¬ ∀ junk, junk.length = FLOAT_SIZE → ∀ u, DNaN u →
      ∃ t j, stringDouble L env junk u = .ok t ∧ readJson t = some j ∧ DNaN (lexiDouble F t) := by
  intro h
  have hw := (C107_nan env L h0 hl F hp he hmax).mp fun junk hj u hu => by
    obtain ⟨t, -, h1, -, h2⟩ := h junk hj u hu
    exact ⟨t, h1, h2⟩
  obtain ⟨t, j, h1, h2, -⟩ := h (List.replicate FLOAT_SIZE 0) (by simp) 0x7FF8000000000000 (by decide +kernel)
  have hF : FLOAT_SIZE = 30 := rfl
  have : stringDouble L env (List.replicate FLOAT_SIZE 0) 0x7FF8000000000000 = .ok L.nan := by
    unfold stringDouble formatDouble
    rw [formatLd_nan env _ ((ofDouble_class _).1 (by decide +kernel)), stringLit _ _ h0 (by simp [hF]; omega)]
    exact readN_prefix _ _
  rw [this] at h1
  cases h1
  rw [C107_nan_not_json _ hw] at h2
  cases h2

/-- The literals for JSON: `null`, `1e999`, `-1e999`. -/
def Literals.json : Literals := { Literals.default with
  nan := ascii "null", infinity := ascii "1e999", negInfinity := ascii "-1e999" }

/-- `1e999` and `-1e999` as parse trees. -/
def overflowNumber (neg : Bool) : JNumber := ⟨neg, ascii "1", none, some ⟨101, [], ascii "999"⟩⟩

theorem overflowNumber_wf (neg : Bool) : (overflowNumber neg).WF := by
  refine ⟨by simp [overflowNumber, ascii], by simp only [overflowNumber]; decide +kernel,
    by simp only [overflowNumber]; decide +kernel, by simp [overflowNumber], ?_⟩
  intro e h
  have : e = ⟨101, [], ascii "999"⟩ := by simpa [overflowNumber] using h.symm
  subst this
  exact ⟨by decide +kernel, by decide +kernel, by decide +kernel, by decide +kernel⟩

/-- C107: with LEXI_NAN `null`, LEXI_INFINITY `1e999` and LEXI_NEGATIVE_INFINITY `-1e999` every double is written as
JSON, and where `long double` is `double` all come back but the NaNs, which are read as zero, and the sign of zero. -/
theorem C107_json (env : Env) (henv : EnvOk env) (junk : Bytes) (hj : junk.length = FLOAT_SIZE) (u : UInt64) :
    ∃ t j, stringDouble .json env junk u = .ok t ∧ readJson t = some j ∧
      (¬ DNaN u → ¬ DZero u → lexiDouble .binary64 t = u) ∧ (DNaN u ∨ DZero u → lexiDouble .binary64 t = 0) := by
  have hlit := fun u hu => (C51_float_literals env .json (by decide +kernel) (by decide +kernel) (by decide +kernel)).2
    (by decide +kernel) junk hj u hu
  rcases class_cases u with hf | hi | hn
  · have hnn : ¬ DNaN u := fun h => hf h.1
    by_cases hz : DZero u
    · refine ⟨ascii "0.0", .num 0, stringDouble_zero env u hz _ junk hj, by decide +kernel, fun _ h => absurd hz h, fun _ => ?_⟩
      unfold lexiDouble extractLongDouble
      rw [read_zero]; decide +kernel
    · obtain ⟨t, h1, h2⟩ := C22_round_trip env henv .json junk hj u hf hz
      obtain ⟨n, hn, h3, -⟩ := C28_notation env henv .json junk hj u hf hz
      have : t = n.text := Res.ok.inj (h1.symm.trans h3)
      subst this
      refine ⟨_, .num n.value, h1, ?_, fun _ _ => h2, fun h => by tauto⟩
      exact readJson_reads (reads_number hn)
  · have hnn : ¬ DNaN u := fun h => h.2 hi.2
    have hz : ¬ DZero u := fun h => by have := hi.1; have := h.1; omega
    have ht := hlit u (fun h => h hi.1)
    rw [if_neg hnn] at ht
    have hb := dinf_bits u hi (decide (dNeg u)) (by simp)
    by_cases hd : dNeg u
    · rw [if_pos hd] at ht
      rw [if_pos (by simpa using hd)] at hb
      refine ⟨_, _, ht, readJson_reads (reads_number (overflowNumber_wf true)), fun _ _ => ?_, fun h => by tauto⟩
      rw [hb]; decide +kernel
    · rw [if_neg hd] at ht
      rw [if_neg (by simpa using hd)] at hb
      refine ⟨_, _, ht, readJson_reads (reads_number (overflowNumber_wf false)), fun _ _ => ?_, fun h => by tauto⟩
      rw [hb]; decide +kernel
  · have ht := hlit u (fun h => h hn.1)
    rw [if_pos hn] at ht
    refine ⟨_, .null, ht, by decide +kernel, fun h => absurd hn h, fun _ => by decide +kernel⟩

/-! ### The round trip as a whole -/

/-- Literals that are kept: NUL-free, of the lengths the buffers and sizes are made for, and words C reads. -/
structure Literals.Kept (L : Literals) : Prop where
  null : 0 ∉ L.null ∧ L.null.length = 4
  true_ : 0 ∉ L.true_ ∧ L.true_.length = 4
  false_ : 0 ∉ L.false_ ∧ L.false_.length = 5
  nan : 0 ∉ L.nan ∧ L.nan.length ≤ 29 ∧ NanWord L.nan
  infinity : 0 ∉ L.infinity ∧ L.infinity.length ≤ 29 ∧ InfWord false L.infinity
  negInfinity : 0 ∉ L.negInfinity ∧ L.negInfinity.length ≤ 29 ∧ InfWord true L.negInfinity

theorem nanWord_reads (F : FpFormat) {s : Bytes} (h0 : 0 ∉ s) (h : NanWord s) : strtold F s = .nan := by
  rcases word_cases F s h0 with ⟨-, h2⟩ | ⟨h1, -⟩ | ⟨h1, -⟩
  · exact h2
  · exact absurd h h1
  · exact absurd h h1

theorem infWord_reads (F : FpFormat) {s : Bytes} (h0 : 0 ∉ s) {neg : Bool} (h : InfWord neg s) : strtold F s = .inf neg := by
  have hi : ∀ l ∈ ([105, 110, 102] : Bytes), (97 : UInt8) ≤ l ∧ l ≤ 122 := by decide
  obtain ⟨t, ht, hs⟩ := (signedWord_text hi (by simp) h0).mp h
  rw [strtold_text F ht]
  unfold scanMag
  rw [scanMagWith_eq, hs]
  rfl

theorem literal_text (L : Literals) (hL : L.Kept) (env : Env) (henv : EnvOk env) (junk : Bytes) (hj : junk.length = FLOAT_SIZE)
    (F : FpFormat) (x : LVal) :
    ∃ t t', (formatLd L env junk x >>= FloatObj.string) = .ok t ∧
      (formatLd .default env junk x >>= FloatObj.string) = .ok t' ∧ strtold F t = strtold F t' := by
  have hF : FLOAT_SIZE = 30 := rfl
  have lit : ∀ l : Bytes, 0 ∉ l → l.length ≤ 29 →
      ((strncpyLit junk l >>= fun b => .ok (⟨b, 0, l.length⟩ : FloatObj)) >>= FloatObj.string) = .ok l := by
    intro l h0 hl
    rw [stringLit _ _ h0 (by omega), Res.ok_bind]
    exact readN_prefix _ _
  rcases class_cases x.toDouble with hf | hi | hn
  · by_cases hz : DZero x.toDouble
    · rw [formatLd_zero env x hz L junk hj, formatLd_zero env x hz .default junk hj]
      exact ⟨_, _, readN_prefix [48, 46, 48] _, readN_prefix [48, 46, 48] _, rfl⟩
    · obtain ⟨D, k, -, h⟩ := formatLd_finite env henv _ hf hz
      rw [h x rfl L junk hj, h x rfl .default junk hj]
      exact ⟨_, _, readN_prefix _ _, readN_prefix _ _, rfl⟩
  · rw [formatLd_inf env x hi, formatLd_inf env x hi]
    by_cases hd : dNeg x.toDouble
    · simp only [hd, if_true]
      obtain ⟨h1, h2, h3⟩ := hL.negInfinity
      refine ⟨_, _, lit _ h1 h2, lit Literals.default.negInfinity (by decide) (by decide), ?_⟩
      rw [infWord_reads F h1 h3]; rfl
    · simp only [hd, if_false]
      obtain ⟨h1, h2, h3⟩ := hL.infinity
      refine ⟨_, _, lit _ h1 h2, lit Literals.default.infinity (by decide) (by decide), ?_⟩
      rw [infWord_reads F h1 h3]; rfl
  · rw [formatLd_nan env x hn, formatLd_nan env x hn]
    obtain ⟨h1, h2, h3⟩ := hL.nan
    refine ⟨_, _, lit _ h1 h2, lit Literals.default.nan (by decide) (by decide), ?_⟩
    rw [nanWord_reads F h1 h3]; rfl

/-- C107: with any literals that are kept, every value of every scalar type that survives on the platform comes back,
as with the default ones (C73). -/
theorem C107_round_trip (m : Machine) (hm : m.Ok) (hL : m.literals.Kept) (F : FpFormat) (a : Arg)
    (he : a.Exists m.platform) (h : a.Survives F) :
    ∃ T t b, a.target = some T ∧ a.string m = .ok t ∧ T.lexi m.literals F (.stdString t) = .ok b ∧ a.Same b := by
  have hm' : ({ m with literals := .default } : Machine).Ok := ⟨hm.platform, hm.env, hm.junk⟩
  obtain ⟨T, t', b, h1, h2, h3, h4⟩ := C73_round_trip { m with literals := .default } hm' rfl F a he h
  cases a with
  | null =>
    obtain ⟨t, k1, k2⟩ := (C107_null m.literals hL.null.1).mpr hL.null.2 _ (hm.junk _)
    refine ⟨.null, t, .null, rfl, k1, ?_, rfl⟩
    change (lexiNull m.literals t >>= fun _ => Res.ok Arg.null) = _
    rw [k2]; rfl
  | bool x =>
    obtain ⟨t, k1, k2⟩ := (C107_bool m.literals hL.true_.1 hL.false_.1).mpr ⟨hL.true_.2, hL.false_.2⟩ _ (hm.junk _) x
    refine ⟨.bool, t, .bool x, rfl, k1, ?_, rfl⟩
    change (lexiBool m.literals t >>= fun w => Res.ok (Arg.bool w)) = _
    rw [k2]; rfl
  | char c => cases h1; exact ⟨_, t', b, rfl, h2, h3, h4⟩
  | int v => cases h1; exact ⟨_, t', b, rfl, h2, h3, h4⟩
  | enum e => cases h1; exact ⟨_, t', b, rfl, h2, h3, h4⟩
  | fpos o => cases h1; exact ⟨_, t', b, rfl, h2, h3, h4⟩
  | float u =>
    cases h1
    obtain ⟨t, t2, k1, k2, k3⟩ := literal_text _ hL m.env hm.env _ (hm.junk FLOAT_SIZE) F (.ofFloat u)
    have e : t' = t2 := Res.ok.inj (h2.symm.trans k2)
    refine ⟨_, t, b, rfl, k1, ?_, h4⟩
    rw [← h3, e]
    change Res.ok (Arg.float (strtold F t).toFloat) = Res.ok (Arg.float (strtold F t2).toFloat)
    rw [k3]
  | double u =>
    cases h1
    obtain ⟨t, t2, k1, k2, k3⟩ := literal_text _ hL m.env hm.env _ (hm.junk FLOAT_SIZE) F (.ofDouble u)
    have e : t' = t2 := Res.ok.inj (h2.symm.trans k2)
    refine ⟨_, t, b, rfl, k1, ?_, h4⟩
    rw [← h3, e]
    change Res.ok (Arg.double (strtold F t).toDouble) = Res.ok (Arg.double (strtold F t2).toDouble)
    rw [k3]
  | longDouble x =>
    cases h1
    obtain ⟨t, t2, k1, k2, k3⟩ := literal_text _ hL m.env hm.env _ (hm.junk FLOAT_SIZE) F x
    have e : t' = t2 := Res.ok.inj (h2.symm.trans k2)
    refine ⟨_, t, b, rfl, k1, ?_, h4⟩
    rw [← h3, e]
    change Res.ok (Arg.longDouble (strtold F t)) = Res.ok (Arg.longDouble (strtold F t2))
    rw [k3]
  | text a => exact h.elim

/-! ### Instances -/

theorem word_self {w : Bytes} (r : Bytes) (neg : Bool) : SignedWord w neg ((if neg then [45] else []) ++ (w ++ r)) := by
  refine ⟨[], if neg then [45] else [], w, r, rfl, by simp, by cases neg <;> simp, ?_⟩
  unfold Word
  exact List.forall₂_same.mpr fun _ _ => Or.inl rfl

/-- `none`, `True`, `False`, `nan(7)`, `inf`, `-inf` — as Python and C write them, and of the same lengths. -/
example : (⟨ascii "None", ascii "True", ascii "False", ascii "nan(7)", ascii "inf", ascii "-inf"⟩ : Literals).Kept := by
  refine ⟨by decide, by decide, by decide, ⟨by decide, by decide, false, ?_⟩, ⟨by decide, by decide, ?_⟩,
    ⟨by decide, by decide, ?_⟩⟩
  · exact word_self (w := [110, 97, 110]) (ascii "(7)") false
  · exact word_self (w := [105, 110, 102]) [] false
  · exact word_self (w := [105, 110, 102]) [] true

/-- The default literals are kept. -/
example : Literals.default.Kept := by
  have nan : Word [110, 97, 110] [78, 97, 78] := .cons (Or.inr rfl) (.cons (Or.inl rfl) (.cons (Or.inr rfl) .nil))
  have inf : Word [105, 110, 102] [73, 110, 102] := .cons (Or.inr rfl) (.cons (Or.inl rfl) (.cons (Or.inl rfl) .nil))
  refine ⟨by decide, by decide, by decide, ⟨by decide, by decide, false, [], [], _, [], rfl, by simp, by simp, nan⟩,
    ⟨by decide, by decide, [], [], _, [105, 110, 105, 116, 121], rfl, by simp, by simp, inf⟩,
    ⟨by decide, by decide, [], [45], _, [105, 110, 105, 116, 121], rfl, by simp, by simp, inf⟩⟩

/-- `1` and `0` for the booleans are not kept, `nil` for null neither. -/
example : ¬ ((ascii "1").length = 4 ∧ (ascii "0").length = 5) ∧ (ascii "nil").length ≠ 4 := by decide
example : lexiDouble .x87 (ascii "null") = 0 ∧ readJson (ascii "null") = some .null ∧ readJson (ascii "NaN") = none := by
  decide +kernel

end Lexi
