import Verif.Spec.Notations
import Verif.Props.Shell

/-!
# Numbers and words in C, YAML, TOML, XML Schema and JSON5: C97
-/

namespace Lexi
open Spec Soft Dtoa Spec.Lang

/-! ### The parse tree of a finite number's text -/

/-- The texts of finite numbers. -/
structure FShape (n : JNumber) : Prop where
  wf : n.WF
  point : n.frac.isSome ∨ n.exp.isSome
  exp : ∀ e, n.exp = some e → e.marker = 101 ∧ (e.sign = [] ∨ e.sign = [45])

theorem expPart_sign (k : ℤ) : (expPart k).sign = [] ∨ (expPart k).sign = [45] := by
  unfold expPart
  dsimp only
  split <;> simp

theorem double_shape (env : Env) (henv : EnvOk env) (u : UInt64) (hu : DFinite u) (L : Literals) (junk : Bytes)
    (hj : junk.length = FLOAT_SIZE) : ∃ n, FShape n ∧ stringDouble L env junk u = .ok n.text := by
  by_cases hz : DZero u
  · exact ⟨zeroNumber, ⟨zeroNumber_WF, Or.inl rfl, fun e h => by cases h⟩, stringDouble_zero env u hz L junk hj⟩
  · obtain ⟨D, k, hP, h⟩ := stringDouble_finite env henv u hu hz
    refine ⟨prettyNumber (decide (dNeg u)) (decN D) k, ⟨hP.WF hz _, prettyNumber_point _ _ _, ?_⟩, ?_⟩
    · intro e he
      obtain ⟨h1, -⟩ := prettyNumber_sci (decide (dNeg u)) (decN D) k (decN_ne_nil _) (by rw [he]; simp)
      rw [he, Option.some.injEq] at h1
      rw [h1]
      exact ⟨rfl, expPart_sign _⟩
    · rw [← signed_text]; exact h u rfl L junk hj

/-- The pieces of the text. -/
def JNumber.signText (n : JNumber) : Bytes := if n.neg then [45] else []

theorem shape_text (n : JNumber) : n.text = JNumber.signText n ++ (n.int ++ (fracText n.frac ++ expText n.exp)) := text_eq n

theorem opt_sign (n : JNumber) : opt sign (JNumber.signText n) := by
  unfold JNumber.signText
  split
  · exact Or.inr ⟨45, rfl, Or.inr rfl⟩
  · exact Or.inl rfl

theorem opt_minus (n : JNumber) : opt (one (· = 45)) (JNumber.signText n) := by
  unfold JNumber.signText
  split
  · exact Or.inr ⟨45, rfl, rfl⟩
  · exact Or.inl rfl

theorem natural_of {ds : Bytes} (h1 : ds ≠ []) (h2 : ∀ b ∈ ds, IsDigit b) (h3 : ds.length > 1 → ds.head? ≠ some 48) :
    natural ds := by
  cases ds with
  | nil => exact absurd rfl h1
  | cons c r =>
    by_cases hc : c = 48
    · left
      refine ⟨48, ?_, rfl⟩
      cases r with
      | nil => rw [hc]
      | cons d r => exact absurd (by rw [hc]; rfl) (h3 (by simp))
    · right
      exact ⟨[c], r, rfl, ⟨c, rfl, h2 c (by simp), hc⟩, fun b hb => h2 b (by simp [hb])⟩

section
variable {n : JNumber} (h : FShape n)
include h

theorem shape_int : some1 IsDigit n.int := ⟨h.wf.int_ne, h.wf.int_digits⟩

theorem shape_natural : natural n.int := natural_of h.wf.int_ne h.wf.int_digits h.wf.int_lead

theorem shape_exp {e : JExp} (he : n.exp = some e) : cExponent e.text := by
  obtain ⟨h1, h2⟩ := h.exp e he
  obtain ⟨-, -, h3, h4⟩ := h.wf.exp_ok e he
  refine ⟨[e.marker], e.sign ++ e.digits, rfl, ⟨_, rfl, Or.inl h1⟩, e.sign, e.digits, rfl, ?_, h3, h4⟩
  rcases h2 with h2 | h2 <;> rw [h2]
  · exact Or.inl rfl
  · exact Or.inr ⟨45, rfl, Or.inr rfl⟩

theorem shape_opt_exp : opt cExponent (expText n.exp) := by
  cases he : n.exp with
  | none => exact Or.inl rfl
  | some e => exact Or.inr (shape_exp h he)

theorem shape_c : cFloating (n.int ++ (fracText n.frac ++ expText n.exp)) := by
  cases hf : n.frac with
  | some f =>
    left
    refine ⟨n.int ++ 46 :: f, expText n.exp, by simp [fracText], Or.inl ?_, shape_opt_exp h⟩
    exact ⟨n.int, 46 :: f, rfl, Or.inr (shape_int h), [46], f, rfl, ⟨46, rfl, rfl⟩, h.wf.frac_ok f hf⟩
  | none =>
    right
    cases he : n.exp with
    | none => have := h.point; rw [hf, he] at this; simp at this
    | some e => exact ⟨n.int, e.text, rfl, shape_int h, shape_exp h he⟩

theorem shape_frac : opt (cat point (many IsDigit)) (fracText n.frac) := by
  cases hf : n.frac with
  | none => exact Or.inl rfl
  | some f => exact Or.inr ⟨[46], f, rfl, ⟨46, rfl, rfl⟩, (h.wf.frac_ok f hf).2⟩

theorem shape_yaml12 : yaml12Float n.text := by
  rw [shape_text]
  exact Or.inl ⟨_, _, rfl, opt_sign n, n.int ++ fracText n.frac, expText n.exp, by simp,
    Or.inr ⟨_, _, rfl, shape_int h, shape_frac h⟩, shape_opt_exp h⟩

theorem shape_xs : xsDouble n.text := by
  rw [shape_text]
  exact Or.inl ⟨_, _, rfl, opt_sign n, n.int ++ fracText n.frac, expText n.exp, by simp,
    Or.inl ⟨_, _, rfl, shape_int h, shape_frac h⟩, shape_opt_exp h⟩

theorem shape_toml : tomlFloat n.text := by
  rw [shape_text]
  refine Or.inl ⟨_, _, rfl, opt_sign n, n.int, _, rfl, shape_natural h, ?_⟩
  cases hf : n.frac with
  | some f =>
    exact Or.inr ⟨[46], f ++ expText n.exp, rfl, ⟨46, rfl, rfl⟩, f, _, rfl, h.wf.frac_ok f hf, shape_opt_exp h⟩
  | none =>
    left
    cases he : n.exp with
    | none => have := h.point; rw [hf, he] at this; simp at this
    | some e => exact shape_exp h he

theorem shape_json5 : json5Number n.text := by
  rw [shape_text]
  refine ⟨_, _, rfl, opt_sign n, Or.inr (Or.inr ⟨n.int ++ fracText n.frac, expText n.exp, by simp, ?_, shape_opt_exp h⟩)⟩
  cases hf : n.frac with
  | some f => exact Or.inl ⟨_, _, rfl, shape_natural h, [46], f, rfl, ⟨46, rfl, rfl⟩, (h.wf.frac_ok f hf).2⟩
  | none => exact Or.inr (Or.inr (by simpa [fracText] using shape_natural h))

/-- The bytes of the text. -/
theorem shape_bytes : ∀ b ∈ n.text, IsDigit b ∨ b = 45 ∨ b = 46 ∨ b = 101 := by
  rw [shape_text]
  intro b hb
  simp only [List.mem_append] at hb
  rcases hb with hb | hb | hb | hb
  · unfold JNumber.signText at hb
    split at hb
    · simp at hb; tauto
    · cases hb
  · exact Or.inl (h.wf.int_digits b hb)
  · cases hf : n.frac with
    | none => rw [hf] at hb; cases hb
    | some f =>
      rw [hf] at hb
      rcases List.mem_cons.mp hb with hb | hb
      · tauto
      · exact Or.inl ((h.wf.frac_ok f hf).2 b hb)
  · cases he : n.exp with
    | none => rw [he] at hb; cases hb
    | some e =>
      rw [he] at hb
      obtain ⟨h1, h2⟩ := h.exp e he
      obtain ⟨-, -, -, h4⟩ := h.wf.exp_ok e he
      rcases List.mem_cons.mp hb with hb | hb
      · rw [hb, h1]; tauto
      · rcases List.mem_append.mp hb with hb | hb
        · rcases h2 with h2 | h2 <;> rw [h2] at hb <;> simp at hb
          tauto
        · exact Or.inl (h4 b hb)

theorem shape_mark : 46 ∈ n.text ∨ 101 ∈ n.text := by
  rw [shape_text]
  rcases h.point with hp | hp
  · obtain ⟨f, hf⟩ := Option.isSome_iff_exists.mp hp
    left; simp [hf, fracText]
  · obtain ⟨e, he⟩ := Option.isSome_iff_exists.mp hp
    right; simp [he, expText, JExp.text, (h.exp e he).1]

end

/-! ### Which bytes occur -/

theorem cat_bytes {A B : Lang} {P Q : UInt8 → Prop} (hA : ∀ t, A t → ∀ b ∈ t, P b) (hB : ∀ t, B t → ∀ b ∈ t, Q b) :
    ∀ t, cat A B t → ∀ b ∈ t, P b ∨ Q b := by
  rintro t ⟨x, y, rfl, hx, hy⟩ b hb
  rcases List.mem_append.mp hb with h | h
  · exact Or.inl (hA x hx b h)
  · exact Or.inr (hB y hy b h)

theorem sign_bytes : ∀ t, opt sign t → ∀ b ∈ t, b = 43 ∨ b = 45 := by
  rintro t (rfl | ⟨c, rfl, hc⟩) b hb
  · cases hb
  · rw [List.mem_singleton.mp hb]; exact hc

theorem yaml12Int_bytes : ∀ t, yaml12Int t → ∀ b ∈ t, (b = 43 ∨ b = 45) ∨ IsDigit b :=
  cat_bytes sign_bytes fun _ h => h.2

theorem digit_facts (b : UInt8) : IsDigit b → b ≠ 46 ∧ b ≠ 101 ∧ b ≠ 98 ∧ b ≠ 120 ∧ b ≠ 58 ∧ b ≠ 45 ∧ b ≠ 43 ∧
    b ≠ 69 ∧ b ≠ 95 ∧ b ≠ 105 ∧ b ≠ 73 ∧ b ≠ 110 ∧ b ≠ 78 := by
  revert b; apply forall_byte; decide +kernel

/-- A text with a point or an `e` is no integer of YAML 1.1, unless it has a `b`, an `x` or a colon. -/
theorem yaml11Int_bytes {t : Bytes} (ht : yaml11Int t) : (98 ∈ t ∨ 120 ∈ t ∨ 58 ∈ t) ∨ (46 ∉ t ∧ 101 ∉ t) := by
  have hd_ : ∀ b, DigitOr_ b → b ≠ 46 ∧ b ≠ 101 := by
    rintro b (h | rfl)
    · exact ⟨(digit_facts b h).1, (digit_facts b h).2.1⟩
    · decide
  have hs : ∀ t, opt sign t → ∀ b ∈ t, b ≠ 46 ∧ b ≠ 101 := by
    intro t h b hb
    rcases sign_bytes t h b hb with rfl | rfl <;> decide
  have fin : (∀ b ∈ t, (b ≠ 46 ∧ b ≠ 101)) → 46 ∉ t ∧ 101 ∉ t := fun h => ⟨fun hb => (h _ hb).1 rfl, fun hb => (h _ hb).2 rfl⟩
  rcases ht with ⟨s, r, rfl, h1, h2⟩ | ⟨s, r, rfl, h1, z, q, rfl, ⟨_, rfl, rfl⟩, -, h3⟩ |
      ⟨s, r, rfl, h1, z, q, rfl, -, x, y, rfl, -, h3⟩ | ⟨s, r, rfl, h1, z, q, rfl, -, x, y, rfl, ⟨c, rfl, hc⟩, -⟩
  · right
    apply fin
    intro b hb
    rcases List.mem_append.mp hb with hb | hb
    · exact hs s h1 b hb
    · rcases h2 with ⟨_, rfl, rfl⟩ | ⟨c, m, rfl, ⟨_, rfl, hc, -⟩, hm⟩
      · rw [List.mem_singleton.mp hb]; decide
      · rcases List.mem_append.mp hb with hb | hb
        · rw [List.mem_singleton.mp hb]; exact hd_ _ (Or.inl hc)
        · exact hd_ b (hm b hb)
  · right
    apply fin
    intro b hb
    simp only [List.mem_append, List.mem_singleton] at hb
    rcases hb with hb | rfl | hb
    · exact hs s h1 b hb
    · decide
    · rcases h3 b hb with ⟨h4, h5⟩ | rfl
      · have : b ≤ 57 := UInt8.le_trans h5 (by decide : (55 : UInt8) ≤ 57)
        exact hd_ b (Or.inl ⟨h4, this⟩)
      · decide
  · left; right; right
    have : 58 ∈ y := by
      cases h3 with
      | one h => obtain ⟨_, _, rfl, ⟨_, rfl, rfl⟩, -⟩ := h; simp
      | more h _ => obtain ⟨_, _, rfl, ⟨_, rfl, rfl⟩, -⟩ := h; simp
    simp [this]
  · left
    rcases hc with rfl | rfl <;> simp

/-! ### Floating-point numbers of YAML 1.1 -/

/-- In a text with a single `e`, before a digit, no `e` stands before a minus. -/
theorem no_minus {p r : Bytes} (hp : 101 ∉ p) (hr : ∀ b ∈ r, IsDigit b) : ¬ [101, 45] <:+: p ++ 101 :: r := by
  rintro ⟨a, b, hab⟩
  induction p generalizing a with
  | nil =>
    cases a with
    | nil =>
      have h2 := (List.cons.inj hab).2
      exact (digit_facts 45 (hr 45 (by rw [← h2]; change 45 ∈ 45 :: b; simp))).2.2.2.2.2.1 rfl
    | cons x a =>
      have h2 := (List.cons.inj hab).2
      exact (digit_facts 101 (hr 101 (by rw [← h2]; simp))).2.1 rfl
  | cons c p ih =>
    cases a with
    | nil => exact hp (by rw [← (List.cons.inj hab).1]; simp)
    | cons x a => exact ih (fun h => hp (by simp [h])) a (List.cons.inj hab).2

theorem shape_yaml11 {n : JNumber} (h : FShape n) :
    yaml11Float n.text ↔ 46 ∈ n.text ∧ (101 ∈ n.text → [101, 45] <:+: n.text) := by
  have hb := shape_bytes h
  have hno : ∀ c : UInt8, ¬ IsDigit c → c ≠ 45 → c ≠ 46 → c ≠ 101 → c ∉ n.text := by
    intro c h1 h2 h3 h4 hc
    rcases hb c hc with h | h | h | h
    exacts [h1 h, h2 h, h3 h, h4 h]
  constructor
  · intro hy
    rcases hy with hy | hy | hy
    · obtain ⟨s, r, ht, hs, i, r, rfl, hi, p, r, rfl, ⟨_, rfl, rfl⟩, d, x, rfl, hd, hx⟩ := hy
      rw [ht] at hno ⊢
      refine ⟨by simp, fun h101 => ?_⟩
      rcases hx with rfl | ⟨e, r, rfl, ⟨c, rfl, hc⟩, sg, ds, rfl, ⟨b, rfl, hb⟩, hds⟩
      · exfalso
        simp only [List.append_nil, List.mem_append, List.mem_singleton] at h101
        rcases h101 with h1 | h1 | h1 | h1
        · rcases sign_bytes s hs _ h1 with h | h <;> exact absurd h (by decide)
        · rcases hi with rfl | ⟨_, m, rfl, ⟨_, rfl, hc⟩, hm⟩
          · cases h1
          · rcases List.mem_append.mp h1 with h1 | h1
            · rw [← List.mem_singleton.mp h1] at hc; exact absurd hc (by decide)
            · rcases hm _ h1 with h | h <;> exact absurd h (by decide)
        · exact absurd h1 (by decide)
        · rcases hd _ h1 with h | h <;> exact absurd h (by decide)
      · have hc : c = 101 := hc.resolve_right fun h => hno 69 (by decide) (by decide) (by decide) (by decide) (by simp [h])
        have hb : b = 45 := hb.resolve_left fun h => hno 43 (by decide) (by decide) (by decide) (by decide) (by simp [h])
        subst hc; subst hb
        exact ⟨s ++ (i ++ ([46] ++ d)), ds, by simp⟩
    · exfalso
      obtain ⟨s, r, ht, -, i, r, rfl, -, m, r, rfl, -, q, r, rfl, hq, -⟩ := hy
      refine hno 58 (by decide) (by decide) (by decide) (by decide) ?_
      have : 58 ∈ q := by
        cases hq with
        | one h => obtain ⟨_, _, rfl, ⟨_, rfl, rfl⟩, -⟩ := h; simp
        | more h _ => obtain ⟨_, _, rfl, ⟨_, rfl, rfl⟩, -⟩ := h; simp
      rw [ht]; simp [this]
    · exfalso
      rcases hy with ⟨s, r, ht, -, rfl | rfl | rfl⟩ | ht | ht | ht
      · exact hno 105 (by decide) (by decide) (by decide) (by decide) (by rw [ht]; simp [ascii])
      · exact hno 73 (by decide) (by decide) (by decide) (by decide) (by rw [ht]; simp [ascii])
      · exact hno 73 (by decide) (by decide) (by decide) (by decide) (by rw [ht]; simp [ascii])
      · exact hno 110 (by decide) (by decide) (by decide) (by decide) (by rw [ht]; decide)
      · exact hno 78 (by decide) (by decide) (by decide) (by decide) (by rw [ht]; decide)
      · exact hno 78 (by decide) (by decide) (by decide) (by decide) (by rw [ht]; decide)
  · rintro ⟨h46, h101⟩
    have hi : ∀ b ∈ n.int, IsDigit b := h.wf.int_digits
    have hint : opt (cat (one IsDigit) (many DigitOr_)) n.int := by
      right
      cases hn : n.int with
      | nil => exact absurd hn h.wf.int_ne
      | cons c r =>
        rw [hn] at hi
        exact ⟨[c], r, rfl, ⟨c, rfl, hi c (by simp)⟩, fun b hb => Or.inl (hi b (by simp [hb]))⟩
    have hsg : ∀ b ∈ JNumber.signText n, b = 45 := by
      unfold JNumber.signText
      intro b hb
      split at hb
      · simpa using hb
      · cases hb
    rw [shape_text] at h46 h101 ⊢
    obtain ⟨f, hf⟩ : ∃ f, n.frac = some f := by
      cases hf : n.frac with
      | some f => exact ⟨f, rfl⟩
      | none =>
        exfalso
        rw [hf] at h46
        simp only [fracText, List.nil_append, List.mem_append] at h46
        rcases h46 with h1 | h1 | h1
        · exact absurd (hsg _ h1) (by decide)
        · exact absurd (hi _ h1) (by decide)
        · cases he : n.exp with
          | none => rw [he] at h1; cases h1
          | some e =>
            rw [he] at h1
            obtain ⟨h2, h3⟩ := h.exp e he
            obtain ⟨-, -, -, h4⟩ := h.wf.exp_ok e he
            rcases List.mem_cons.mp h1 with h1 | h1
            · rw [h2] at h1; exact absurd h1 (by decide)
            · rcases List.mem_append.mp h1 with h1 | h1
              · rcases h3 with h3 | h3 <;> rw [h3] at h1 <;> simp at h1
              · exact absurd (h4 _ h1) (by decide)
    have hfd := (h.wf.frac_ok f hf).2
    rw [hf] at h101 ⊢
    refine Or.inl ⟨_, _, rfl, opt_sign n, _, _, rfl, hint, [46], f ++ expText n.exp, rfl, ⟨46, rfl, rfl⟩,
      f, _, rfl, fun b hb => Or.inl (hfd b hb), ?_⟩
    cases he : n.exp with
    | none => exact Or.inl rfl
    | some e =>
      right
      obtain ⟨h2, h3⟩ := h.exp e he
      obtain ⟨-, -, h5, h4⟩ := h.wf.exp_ok e he
      rw [he] at h101
      have h6 := h101 (by simp [expText, JExp.text, h2])
      have h7 : e.sign = [45] := by
        refine h3.resolve_left fun h3 => ?_
        refine no_minus (p := JNumber.signText n ++ (n.int ++ 46 :: f)) (r := e.digits) ?_ h4 ?_
        · simp only [List.mem_append, List.mem_cons, not_or]
          exact ⟨fun hb => absurd (hsg _ hb) (by decide), fun hb => absurd (hi _ hb) (by decide), by decide,
            fun hb => absurd (hfd _ hb) (by decide)⟩
        · simpa [expText, JExp.text, h2, h3, fracText] using h6
      exact ⟨[101], 45 :: e.digits, by simp [expText, JExp.text, h2, h7], ⟨101, rfl, Or.inl rfl⟩, [45], e.digits, rfl,
        ⟨45, rfl, Or.inr rfl⟩, h5, h4⟩

/-! ### The claims -/

theorem float_shape (m : Machine) (hm : m.Ok) (a : Arg) (he : a.Exists m.platform) (ha : a.Floating) (hf : a.Finite) :
    ∃ n, FShape n ∧ a.string m = .ok n.text := by
  have main : ∀ x : LVal, DFinite x.toDouble →
      ∃ n, FShape n ∧ (formatLd m.literals m.env (m.junk FLOAT_SIZE) x >>= FloatObj.string) = .ok n.text := by
    intro x hx
    have h2 : x.toDouble = (LVal.ofDouble x.toDouble).toDouble := by rw [toDouble_ofDouble _ fun h => hx h.1]
    rw [formatLd_congr _ _ _ h2]
    exact double_shape m.env hm.env _ hx m.literals _ (hm.junk _)
  cases a with
  | float u =>
    obtain ⟨d, h1, h2, -⟩ := float_double u hf
    exact main _ (by rw [h1]; exact h2)
  | double u => exact main (.ofDouble u) (by rw [toDouble_ofDouble u fun h => hf h.1]; exact hf)
  | longDouble x =>
    cases x with
    | fin neg q => exact main _ (toDouble_value neg he hf).1
    | nan => exact hf.elim
    | inf neg => exact hf.elim
  | _ => exact ha.elim

/-- C97, finite numbers.  The text of a finite floating-point number is a floating constant of C (with a minus in front if
negative), a float and no integer of the YAML 1.2 core schema and of TOML, an `xs:double` and a JSON5 number.  YAML
1.1 reads it as a float exactly if it has a point and its exponent, if any, is negative: `1e21` and `1.5e300` are
strings there.  It is never an integer of YAML 1.1. -/
theorem C97_finite (m : Machine) (hm : m.Ok) (a : Arg) (he : a.Exists m.platform) (ha : a.Floating) (hf : a.Finite) :
    ∃ t, a.string m = .ok t ∧ negated cFloating t ∧ yaml12Float t ∧ ¬ yaml12Int t ∧ tomlFloat t ∧ ¬ tomlInt t ∧
      xsDouble t ∧ json5Number t ∧ ¬ yaml11Int t ∧
      (yaml11Float t ↔ 46 ∈ t ∧ (101 ∈ t → [101, 45] <:+: t)) := by
  obtain ⟨n, h, ht⟩ := float_shape m hm a he ha hf
  have hi12 : ¬ yaml12Int n.text := by
    intro hi
    have hb := yaml12Int_bytes _ hi
    rcases shape_mark h with h1 | h1
    · rcases hb _ h1 with (h2 | h2) | h2 <;> exact absurd h2 (by decide)
    · rcases hb _ h1 with (h2 | h2) | h2 <;> exact absurd h2 (by decide)
  refine ⟨_, ht, ?_, shape_yaml12 h, hi12, shape_toml h, fun hi => hi12 ?_, shape_xs h, shape_json5 h, ?_, shape_yaml11 h⟩
  · rw [shape_text]; exact ⟨_, _, rfl, opt_minus n, shape_c h⟩
  · obtain ⟨s, d, e, hs, hd⟩ := hi
    refine ⟨s, d, e, hs, ?_⟩
    rcases hd with ⟨_, rfl, rfl⟩ | ⟨_, r, rfl, ⟨c, rfl, hc, -⟩, hr⟩
    · exact ⟨by simp, by decide⟩
    · refine ⟨by simp, fun b hb => ?_⟩
      rcases List.mem_append.mp hb with hb | hb
      · rw [List.mem_singleton.mp hb]; exact hc
      · exact hr b hb
  · intro hi
    have hb := shape_bytes h
    rcases yaml11Int_bytes hi with (h1 | h1 | h1) | h1
    · rcases hb _ h1 with h2 | h2 | h2 | h2 <;> exact absurd h2 (by decide)
    · rcases hb _ h1 with h2 | h2 | h2 | h2 <;> exact absurd h2 (by decide)
    · rcases hb _ h1 with h2 | h2 | h2 | h2 <;> exact absurd h2 (by decide)
    · rcases shape_mark h with h2 | h2
      exacts [h1.1 h2, h1.2 h2]

example : yaml11Float (ascii "1.5e-7") := by
  have h : FShape ⟨false, [49], some [53], some ⟨101, [45], [55]⟩⟩ := by
    refine ⟨⟨by decide, by decide, by decide, ?_, ?_⟩, Or.inl rfl, ?_⟩
    · rintro f h; cases h; decide
    · rintro f h; cases h; simp [JExp.WF]; decide
    · rintro f h; cases h; simp
  exact (shape_yaml11 h).mpr (by decide)

example : ¬ yaml11Float (ascii "1.5e300") := by
  have h : FShape ⟨false, [49], some [53], some ⟨101, [], [51, 48, 48]⟩⟩ := by
    refine ⟨⟨by decide, by decide, by decide, ?_, ?_⟩, Or.inl rfl, ?_⟩
    · rintro f h; cases h; decide
    · rintro f h; cases h; simp [JExp.WF]; decide
    · rintro f h; cases h; simp
  exact fun hy => absurd ((shape_yaml11 h).mp hy) (by decide)

theorem whole_text (n : ℤ) :
    (negated cDecimal (decimalText n) ∨ decimalText n = [48]) ∧ yaml11Decimal (decimalText n) ∧
      ¬ yaml11Octal (decimalText n) ∧ yaml12Int (decimalText n) ∧ tomlInt (decimalText n) ∧ xsInteger (decimalText n) ∧
      json5Number (decimalText n) := by
  obtain ⟨ds, ht, hne, hd, hl, hv⟩ := decimalText_canonical n
  obtain ⟨s, hs, hm, ht⟩ : ∃ s, opt sign s ∧ opt (one (· = 45)) s ∧ decimalText n = s ++ ds := by
    by_cases h : n < 0
    · rw [if_pos h] at ht
      exact ⟨[45], Or.inr ⟨45, rfl, Or.inr rfl⟩, Or.inr ⟨45, rfl, rfl⟩, ht⟩
    · rw [if_neg h] at ht
      exact ⟨[], Or.inl rfl, Or.inl rfl, ht⟩
  have hnat := natural_of hne hd hl
  refine ⟨?_, ?_, ?_, ?_, ?_, ?_, ?_⟩
  · rcases hnat with ⟨_, rfl, rfl⟩ | h
    · right
      by_cases hn : n < 0
      · have : digitsValue [48] = 0 := by decide
        rw [this] at hv; omega
      · have e := decimalText_canonical n
        obtain rfl : n = 0 := by
          have : digitsValue [48] = 0 := by decide
          rw [this] at hv; omega
        decide
    · left; rw [ht]; exact ⟨_, _, rfl, hm, h⟩
  · rw [ht]
    refine ⟨_, _, rfl, hs, ?_⟩
    rcases hnat with h | ⟨a, b, h1, h2, h3⟩
    · exact Or.inl h
    · exact Or.inr ⟨a, b, h1, h2, fun b hb => Or.inl (h3 b hb)⟩
  · rintro ⟨s', r, h1, h2, z, q, rfl, ⟨_, rfl, rfl⟩, h3, h4⟩
    have : s' = s ∧ [48] ++ q = ds := by
      rw [h1] at ht
      have hnd : ∀ b, opt sign b → ∀ x ∈ b, ¬ IsDigit x := by
        intro b hb x hx
        rcases sign_bytes b hb x hx with rfl | rfl <;> decide
      have dsh : ∀ {d : UInt8} {a b : Bytes}, IsDigit d → opt sign (d :: a) → False := fun hd h =>
        hnd _ h _ (by simp) hd
      rcases h2 with rfl | ⟨b, rfl, hb⟩
      · rcases hs with rfl | ⟨c, rfl, hc⟩
        · exact ⟨rfl, ht⟩
        · have := (List.cons.inj ht).1
          rcases hc with rfl | rfl <;> exact absurd this (by decide)
      · rcases hs with rfl | ⟨c, rfl, hc⟩
        · rw [List.nil_append] at ht
          have := hd b (by rw [← ht]; simp)
          rcases hb with rfl | rfl <;> exact absurd this (by decide)
        · have := List.cons.inj ht
          exact ⟨by rw [this.1], this.2⟩
    rw [← this.2] at hl
    exact hl (by cases q with | nil => exact absurd rfl h3 | cons => simp) rfl
  · rw [ht]; exact ⟨_, _, rfl, hs, hne, hd⟩
  · rw [ht]; exact ⟨_, _, rfl, hs, hnat⟩
  · rw [ht]; exact ⟨_, _, rfl, hs, hne, hd⟩
  · rw [ht]; exact ⟨_, _, rfl, hs, Or.inr (Or.inr ⟨ds, [], by simp, Or.inr (Or.inr hnat), Or.inl rfl⟩)⟩

/-- The integer an argument is. -/
def Arg.whole : Arg → Option ℤ
  | .int v => some v.toInt
  | .enum e => some e.toInt
  | .fpos o => some o.toInt
  | _ => none

/-- C97, integers.  The text of an integer, enumerator or stream position is an integer in base 10 everywhere, with no plus
and no leading zero, so that no notation takes it for octal. -/
theorem C97_integers (m : Machine) (hm : m.Ok) (a : Arg) (he : a.Exists m.platform) (ha : a.whole.isSome) :
    ∃ t, a.string m = .ok t ∧ (negated cDecimal t ∨ t = [48]) ∧ yaml11Decimal t ∧ ¬ yaml11Octal t ∧ yaml12Int t ∧
      tomlInt t ∧ xsInteger t ∧ json5Number t := by
  cases a with
  | int v => exact ⟨_, stringInt_eq _ hm.platform _ (hm.junk _) v he, whole_text _⟩
  | enum e => exact ⟨_, stringEnum_eq _ hm.platform _ (hm.junk _) e he, whole_text _⟩
  | fpos o => exact ⟨_, formatFpos_eq _ hm.platform _ (hm.junk _) o, whole_text _⟩
  | _ => cases ha

/-! ### Special values and words -/

/-- The text of NaN and the infinities. -/
def IsSpecial (t : Bytes) : Prop := t = ascii "NaN" ∨ t = ascii "Infinity" ∨ t = ascii "-Infinity"

theorem special_head {t s r : Bytes} (ht : IsSpecial t) (hs : opt sign s) (h : t = s ++ r) :
    ∃ b, r.head? = some b ∧ (b = 78 ∨ b = 73 ∨ b = 45) := by
  rcases hs with rfl | ⟨c, rfl, hc⟩
  · rw [List.nil_append] at h
    subst h
    rcases ht with rfl | rfl | rfl
    · exact ⟨78, rfl, Or.inl rfl⟩
    · exact ⟨73, rfl, Or.inr (Or.inl rfl)⟩
    · exact ⟨45, rfl, Or.inr (Or.inr rfl)⟩
  · rcases ht with rfl | rfl | rfl
    · have := (List.cons.inj h).1
      rcases hc with rfl | rfl <;> exact absurd this (by decide)
    · have := (List.cons.inj h).1
      rcases hc with rfl | rfl <;> exact absurd this (by decide)
    · have := (List.cons.inj h).2
      exact ⟨73, by change _ = r at this; rw [← this]; rfl, Or.inr (Or.inl rfl)⟩

/-- A text that begins, after a sign, with a digit or a point. -/
def Numeric : Lang := cat (opt sign) fun r => ∃ b, r.head? = some b ∧ (IsDigit b ∨ b = 46)

theorem special_numeric {t : Bytes} (ht : IsSpecial t) : ¬ Numeric t := by
  rintro ⟨s, r, h, hs, b, hb, h2⟩
  obtain ⟨c, hc, h3⟩ := special_head ht hs h
  rw [hb, Option.some.injEq] at hc
  subst hc
  rcases h3 with rfl | rfl | rfl <;> rcases h2 with h2 | h2 <;> exact absurd h2 (by decide)

theorem head_append {a b : Bytes} {c : UInt8} (h : a.head? = some c) : (a ++ b).head? = some c := by
  cases a with
  | nil => cases h
  | cons x a => exact h

theorem some1_head {t : Bytes} (h : some1 IsDigit t) : ∃ b, t.head? = some b ∧ (IsDigit b ∨ b = 46) := by
  cases t with
  | nil => exact absurd rfl h.1
  | cons c t => exact ⟨c, rfl, Or.inl (h.2 c (by simp))⟩

theorem natural_head {t : Bytes} (h : natural t) : ∃ b, t.head? = some b ∧ (IsDigit b ∨ b = 46) := by
  rcases h with ⟨_, rfl, rfl⟩ | ⟨_, r, rfl, ⟨c, rfl, hc, -⟩, -⟩
  · exact ⟨48, rfl, Or.inl (by decide)⟩
  · exact ⟨c, rfl, Or.inl hc⟩

theorem point_head {A : Lang} {t : Bytes} (h : cat point A t) : ∃ b, t.head? = some b ∧ (IsDigit b ∨ b = 46) := by
  obtain ⟨_, r, rfl, ⟨c, rfl, hc⟩, -⟩ := h
  exact ⟨c, rfl, Or.inr hc⟩

theorem cat_head {A B : Lang} {t : Bytes} (hA : ∀ x, A x → ∃ b, x.head? = some b ∧ (IsDigit b ∨ b = 46))
    (h : cat A B t) : ∃ b, t.head? = some b ∧ (IsDigit b ∨ b = 46) := by
  obtain ⟨x, y, rfl, hx, -⟩ := h
  obtain ⟨b, h1, h2⟩ := hA x hx
  exact ⟨b, head_append h1, h2⟩

theorem minus_sign {t : Bytes} (h : opt (one (· = 45)) t) : opt sign t := by
  rcases h with rfl | ⟨b, rfl, hb⟩
  · exact Or.inl rfl
  · exact Or.inr ⟨b, rfl, Or.inr hb⟩

theorem opt_head {A B : Lang} {t : Bytes} (hA : ∀ x, A x → ∃ b, x.head? = some b ∧ (IsDigit b ∨ b = 46))
    (hB : ∀ x, B x → ∃ b, x.head? = some b ∧ (IsDigit b ∨ b = 46))
    (h : cat (opt A) B t) : ∃ b, t.head? = some b ∧ (IsDigit b ∨ b = 46) := by
  obtain ⟨x, y, rfl, rfl | hx, hy⟩ := h
  · exact hB y hy
  · obtain ⟨b, h1, h2⟩ := hA x hx
    exact ⟨b, head_append h1, h2⟩

theorem one_head {C : UInt8 → Prop} (hC : ∀ b, C b → IsDigit b) {t : Bytes} (h : one C t) :
    ∃ b, t.head? = some b ∧ (IsDigit b ∨ b = 46) := by
  obtain ⟨b, rfl, hb⟩ := h
  exact ⟨b, rfl, Or.inl (hC b hb)⟩

theorem c_numeric {t : Bytes} (h : negated cFloating t) : Numeric t := by
  obtain ⟨s, r, rfl, hs, hr⟩ := h
  refine ⟨s, r, rfl, minus_sign hs, ?_⟩
  rcases hr with hr | hr
  · refine cat_head ?_ hr
    rintro x (hx | hx)
    · exact opt_head (fun _ => some1_head) (fun _ => point_head) hx
    · exact cat_head (fun _ => some1_head) hx
  · exact cat_head (fun _ => some1_head) hr

theorem special_not_yamlSpecial {t : Bytes} (ht : IsSpecial t) : ¬ yamlSpecial t := by
  have dot : ∀ s : Bytes, s.head? = some 46 → ∃ b, s.head? = some b ∧ (IsDigit b ∨ b = 46) := fun s h =>
    ⟨46, h, Or.inr rfl⟩
  intro h
  refine special_numeric ht ?_
  rcases h with ⟨s, r, e, hs, h | h | h⟩ | h | h | h
  · exact ⟨s, r, e, hs, dot r (by rw [show r = _ from h]; rfl)⟩
  · exact ⟨s, r, e, hs, dot r (by rw [show r = _ from h]; rfl)⟩
  · exact ⟨s, r, e, hs, dot r (by rw [show r = _ from h]; rfl)⟩
  · exact ⟨[], t, rfl, Or.inl rfl, dot t (by rw [show t = _ from h]; rfl)⟩
  · exact ⟨[], t, rfl, Or.inl rfl, dot t (by rw [show t = _ from h]; rfl)⟩
  · exact ⟨[], t, rfl, Or.inl rfl, dot t (by rw [show t = _ from h]; rfl)⟩

theorem special_other {t : Bytes} (ht : IsSpecial t) :
    ¬ negated cFloating t ∧ ¬ yaml12Float t ∧ ¬ yaml11Float t ∧ ¬ tomlFloat t ∧ (xsDouble t ↔ t = ascii "NaN") ∧
      json5Number t := by
  refine ⟨fun h => special_numeric ht (c_numeric h), ?_, ?_, ?_, ⟨?_, ?_⟩, ?_⟩
  · rintro (⟨s, r, e, hs, hr⟩ | h)
    · refine special_numeric ht ⟨s, r, e, hs, cat_head ?_ hr⟩
      rintro x (hx | hx)
      · exact point_head hx
      · exact cat_head (fun _ => some1_head) hx
    · exact special_not_yamlSpecial ht h
  · rintro (⟨s, r, e, hs, hr⟩ | ⟨s, r, e, hs, hr⟩ | h)
    · exact special_numeric ht ⟨s, r, e, hs, opt_head (fun _ => cat_head fun _ => one_head fun _ h => h)
        (fun _ => point_head) hr⟩
    · exact special_numeric ht ⟨s, r, e, hs, cat_head (fun _ => one_head fun _ h => h) hr⟩
    · exact special_not_yamlSpecial ht h
  · rintro (⟨s, r, e, hs, hr⟩ | ⟨s, r, e, hs, hr⟩)
    · exact special_numeric ht ⟨s, r, e, hs, cat_head (fun _ => natural_head) hr⟩
    · obtain ⟨b, hb, h⟩ := special_head ht hs e
      rcases hr with hr | hr
      · rw [show r = _ from hr] at hb
        obtain rfl : 105 = b := Option.some.inj hb
        exact absurd h (by decide)
      · rw [show r = _ from hr] at hb
        obtain rfl : 110 = b := Option.some.inj hb
        exact absurd h (by decide)
  · rintro (⟨s, r, e, hs, hr⟩ | ⟨s, r, e, hs, hr⟩ | h)
    · exfalso
      refine special_numeric ht ⟨s, r, e, hs, cat_head ?_ hr⟩
      rintro x (hx | hx)
      · exact cat_head (fun _ => some1_head) hx
      · exact point_head hx
    · exfalso
      rw [show r = _ from hr] at e
      have hl := congrArg List.length e
      rw [List.length_append, show (ascii "INF").length = 3 from rfl] at hl
      rcases hs with rfl | ⟨c, rfl, hc⟩
      · rcases ht with rfl | rfl | rfl <;> exact absurd e (by decide)
      · rcases ht with rfl | rfl | rfl <;> exact absurd hl (by simp [ascii])
    · exact h
  · intro h; exact Or.inr (Or.inr h)
  · rcases ht with rfl | rfl | rfl
    · exact ⟨[], _, rfl, Or.inl rfl, Or.inr (Or.inl rfl)⟩
    · exact ⟨[], _, rfl, Or.inl rfl, Or.inl rfl⟩
    · exact ⟨[45], ascii "Infinity", rfl, Or.inr ⟨45, rfl, Or.inr rfl⟩, Or.inl rfl⟩

theorem special_no_int {t : Bytes} (ht : IsSpecial t) :
    ¬ negated (alt cDecimal cOctal) t ∧ ¬ yaml12Int t ∧ ¬ yaml11Int t ∧ ¬ tomlInt t ∧ ¬ xsInteger t := by
  have zero : ∀ x : Bytes, one (· = 48) x → ∃ b, x.head? = some b ∧ (IsDigit b ∨ b = 46) := fun x h =>
    one_head (by rintro b rfl; decide) h
  have nz : ∀ x : Bytes, nonzero x → ∃ b, x.head? = some b ∧ (IsDigit b ∨ b = 46) := fun x h =>
    one_head (fun _ h => h.1) h
  refine ⟨?_, ?_, ?_, ?_, ?_⟩
  · rintro ⟨s, r, e, hs, hr | hr⟩
    · exact special_numeric ht ⟨s, r, e, minus_sign hs, cat_head nz hr⟩
    · exact special_numeric ht ⟨s, r, e, minus_sign hs, cat_head zero hr⟩
  · rintro ⟨s, r, e, hs, hr⟩
    exact special_numeric ht ⟨s, r, e, hs, some1_head hr⟩
  · rintro (⟨s, r, e, hs, hr | hr⟩ | ⟨s, r, e, hs, hr⟩ | ⟨s, r, e, hs, hr⟩ | ⟨s, r, e, hs, hr⟩)
    · exact special_numeric ht ⟨s, r, e, hs, zero r hr⟩
    · exact special_numeric ht ⟨s, r, e, hs, cat_head nz hr⟩
    · exact special_numeric ht ⟨s, r, e, hs, cat_head zero hr⟩
    · exact special_numeric ht ⟨s, r, e, hs, cat_head nz hr⟩
    · exact special_numeric ht ⟨s, r, e, hs, cat_head zero hr⟩
  · rintro ⟨s, r, e, hs, hr⟩
    exact special_numeric ht ⟨s, r, e, hs, natural_head hr⟩
  · rintro ⟨s, r, e, hs, hr⟩
    exact special_numeric ht ⟨s, r, e, hs, some1_head hr⟩

/-- C97, special values.  NaN and the infinities are JSON5 numbers.  NaN is an `xs:double`, the infinities are not.  They are no
floats of YAML and TOML, no constants of C and no integers of any of them. -/
theorem C97_special (m : Machine) (hm : m.Ok) (hL : m.literals = .default) (a : Arg) (he : a.Exists m.platform)
    (ha : a.Floating) (hf : ¬ a.Finite) :
    ∃ t, a.string m = .ok t ∧ ¬ negated cFloating t ∧ ¬ yaml12Float t ∧ ¬ yaml11Float t ∧ ¬ tomlFloat t ∧
      (xsDouble t ↔ t = ascii "NaN") ∧ json5Number t ∧
      ¬ negated (alt cDecimal cOctal) t ∧ ¬ yaml12Int t ∧ ¬ yaml11Int t ∧ ¬ tomlInt t ∧ ¬ xsInteger t := by
  have main : ∀ x : LVal, (∀ neg q, x = .fin neg q → 0 ≤ q) → ¬ DFinite x.toDouble →
      ∃ t, (formatLd m.literals m.env (m.junk FLOAT_SIZE) x >>= FloatObj.string) = .ok t ∧ ¬ negated cFloating t ∧
        ¬ yaml12Float t ∧ ¬ yaml11Float t ∧ ¬ tomlFloat t ∧ (xsDouble t ↔ t = ascii "NaN") ∧ json5Number t ∧
        ¬ negated (alt cDecimal cOctal) t ∧ ¬ yaml12Int t ∧ ¬ yaml11Int t ∧ ¬ tomlInt t ∧ ¬ xsInteger t := by
    intro x h0 hx
    obtain ⟨t, ht, h⟩ := special_text m.env _ (hm.junk _) h0 hx
    rw [hL]
    obtain ⟨h1, h2, h3, h4, h5, h6⟩ := special_other h
    exact ⟨t, ht, h1, h2, h3, h4, h5, h6, special_no_int h⟩
  cases a with
  | float u =>
    have hu : LVal.ofFloat u = .nan ∨ ∃ b, LVal.ofFloat u = .inf b := by
      have hu : ¬ FFinite u := hf
      unfold FFinite fExp at hu
      unfold LVal.ofFloat
      dsimp only
      rw [if_pos (not_not.mp hu)]
      split
      · exact Or.inr ⟨_, rfl⟩
      · exact Or.inl rfl
    refine main (.ofFloat u) (fun neg q h => ofFloat_nonneg h) ?_
    rcases hu with hu | ⟨b, hu⟩
    · rw [hu]; decide
    · rw [hu]; cases b <;> decide
  | double u =>
    have hu : LVal.ofDouble u = .nan ∨ ∃ b, LVal.ofDouble u = .inf b := by
      have hu : ¬ DFinite u := hf
      unfold DFinite dExp at hu
      unfold LVal.ofDouble
      dsimp only
      rw [if_pos (not_not.mp hu)]
      split
      · exact Or.inr ⟨_, rfl⟩
      · exact Or.inl rfl
    refine main (.ofDouble u) (fun neg q h => ofDouble_nonneg h) ?_
    rcases hu with hu | ⟨b, hu⟩
    · rw [hu]; decide
    · rw [hu]; cases b <;> decide
  | longDouble x =>
    cases x with
    | nan => exact main .nan (by intro _ _ h; cases h) (by decide)
    | inf b => exact main (.inf b) (by intro _ _ h; cases h) (by cases b <;> decide)
    | fin neg q =>
      refine main (.fin neg q) (by intro _ _ h; cases h; exact he) ?_
      rw [toDouble_overflow neg (not_lt.mp hf)]
      cases neg <;> decide
  | _ => exact ha.elim

/-- The hypotheses are met: a `long double` too large for a double. -/
example : (Arg.longDouble (.fin true (10 ^ 400))).Exists lp64 ∧ (Arg.longDouble (.fin true (10 ^ 400))).Floating ∧
    ¬ (Arg.longDouble (.fin true (10 ^ 400))).Finite := by
  refine ⟨by change (0 : ℚ) ≤ 10 ^ 400; positivity, trivial, ?_⟩
  change ¬ ((10 : ℚ) ^ 400 < dOverflow)
  unfold dOverflow
  norm_num
  have h : 18014398509481983 * 2 ^ 970 ≤ 10 ^ 400 := by decide +kernel
  exact_mod_cast h

/-- C97, words.  With the default literals null and the booleans are the words of YAML (both versions), and the booleans
those of TOML, XML Schema and JSON5 as well. -/
theorem C97_words (m : Machine) (hm : m.Ok) (hL : m.literals = .default) :
    (∃ t, Arg.null.string m = .ok t ∧ yamlNull t) ∧
    ∀ b, ∃ t, (Arg.bool b).string m = .ok t ∧ yamlBool t ∧ t = ascii (if b then "true" else "false") := by
  refine ⟨⟨ascii "null", ?_, Or.inl rfl⟩, fun b => ⟨_, ?_, ?_, rfl⟩⟩
  · rw [Arg.string, hL]; exact (C11_null _ (hm.junk _) []).1
  · rw [Arg.string, hL]; exact C10_bool_format _ (hm.junk _) b
  · cases b
    · exact Or.inr (Or.inr (Or.inr (Or.inl rfl)))
    · exact Or.inl rfl

end Lexi
