import Verif.Spec.JsonNumber
import Verif.Proofs.Decimal

/-! # A JSON number text has one parse tree, hence one value -/

namespace Lexi.Spec

theorem digits_split : ∀ (ds ds' r r' : List UInt8), (∀ b ∈ ds, IsDigit b) → (∀ b ∈ ds', IsDigit b) →
    (∀ b, r.head? = some b → ¬ IsDigit b) → (∀ b, r'.head? = some b → ¬ IsDigit b) →
    ds ++ r = ds' ++ r' → ds = ds' ∧ r = r'
  | [], [], _, _, _, _, _, _, h => ⟨rfl, h⟩
  | [], b :: ds', r, r', _, h2, h3, _, h => by
    exfalso
    simp only [List.nil_append, List.cons_append] at h
    exact h3 b (by rw [h]; rfl) (h2 b (by simp))
  | a :: ds, [], r, r', h1, _, _, h4, h => by
    exfalso
    simp only [List.nil_append, List.cons_append] at h
    exact h4 a (by rw [← h]; rfl) (h1 a (by simp))
  | a :: ds, b :: ds', r, r', h1, h2, h3, h4, h => by
    simp only [List.cons_append, List.cons.injEq] at h
    have := digits_split ds ds' r r' (fun b hb => h1 b (by simp [hb])) (fun b hb => h2 b (by simp [hb]))
      h3 h4 h.2
    exact ⟨by rw [h.1, this.1], this.2⟩

def expText (e : Option JExp) : List UInt8 := match e with | some e => e.text | none => []
def fracText (f : Option (List UInt8)) : List UInt8 := match f with | some f => 46 :: f | none => []

theorem exp_head (e : Option JExp) (h : ∀ x, e = some x → x.WF) :
    ∀ b, (expText e).head? = some b → b = 101 ∨ b = 69 := by
  intro b hb
  cases e with
  | none => simp [expText] at hb
  | some x =>
    simp only [expText, JExp.text, List.head?_cons, Option.some.injEq] at hb
    have := (h x rfl).1
    rwa [hb] at this

theorem expText_inj {e e' : Option JExp} (h : ∀ x, e = some x → x.WF) (h' : ∀ x, e' = some x → x.WF)
    (ht : expText e = expText e') : e = e' := by
  cases e with
  | none =>
    cases e' with
    | none => rfl
    | some y => simp [expText, JExp.text] at ht
  | some x =>
    cases e' with
    | none => simp [expText, JExp.text] at ht
    | some y =>
      obtain ⟨-, hs, hd, hdd⟩ := h x rfl
      obtain ⟨-, hs', hd', hdd'⟩ := h' y rfl
      simp only [expText, JExp.text, List.cons.injEq] at ht
      obtain ⟨hm, ht⟩ := ht
      have hne : ∀ (c : UInt8) (r ds : List UInt8), (∀ b ∈ ds, IsDigit b) → ds ≠ [] → ¬ IsDigit c →
          c :: r = ds → False := by
        intro c r ds h1 _ h3 h4
        exact h3 (h1 c (by rw [← h4]; simp))
      have h45 : ¬ IsDigit 45 := by decide
      have h43 : ¬ IsDigit 43 := by decide
      have : x.sign = y.sign ∧ x.digits = y.digits := by
        rcases hs with hs | hs | hs <;> rcases hs' with hs' | hs' | hs' <;> rw [hs, hs'] at ht ⊢ <;>
          simp only [List.nil_append, List.cons_append, List.cons.injEq] at ht
        · exact ⟨rfl, ht⟩
        · exact (hne _ _ _ hdd hd h45 ht.symm).elim
        · exact (hne _ _ _ hdd hd h43 ht.symm).elim
        · exact (hne _ _ _ hdd' hd' h45 ht).elim
        · exact ⟨rfl, ht.2⟩
        · exact absurd ht.1 (by decide)
        · exact (hne _ _ _ hdd' hd' h43 ht).elim
        · exact absurd ht.1 (by decide)
        · exact ⟨rfl, ht.2⟩
      cases x; cases y
      simp_all

/-- The grammar is unambiguous. -/
theorem JNumber.text_inj {a b : JNumber} (ha : a.WF) (hb : b.WF) (h : a.text = b.text) : a = b := by
  have head_digit : ∀ n : JNumber, n.WF → ∃ c r, n.int = c :: r ∧ IsDigit c := by
    intro n hn
    cases hi : n.int with
    | nil => exact absurd hi hn.int_ne
    | cons c r => exact ⟨c, r, rfl, hn.int_digits c (by rw [hi]; simp)⟩
  have tx : ∀ n : JNumber, n.text = (if n.neg then [45] else []) ++ (n.int ++ (fracText n.frac ++ expText n.exp)) := by
    intro n
    simp only [JNumber.text, List.append_assoc]
    rfl
  rw [tx, tx] at h
  have hneg : a.neg = b.neg := by
    obtain ⟨c, r, hc, hcd⟩ := head_digit a ha
    obtain ⟨c', r', hc', hcd'⟩ := head_digit b hb
    rw [hc, hc'] at h
    cases ha' : a.neg <;> cases hb' : b.neg <;> rw [ha', hb'] at h <;> try rfl
    · simp only [Bool.false_eq_true, if_false, if_true, List.nil_append, List.cons_append, List.cons.injEq] at h
      rw [h.1] at hcd; exact absurd hcd (by decide)
    · simp only [Bool.false_eq_true, if_false, if_true, List.nil_append, List.cons_append, List.cons.injEq] at h
      rw [← h.1] at hcd'; exact absurd hcd' (by decide)
  rw [hneg] at h
  have h := List.append_cancel_left h
  have tail_nd : ∀ n : JNumber, n.WF → ∀ c, (fracText n.frac ++ expText n.exp).head? = some c → ¬ IsDigit c := by
    intro n hn c hc
    cases hf : n.frac with
    | some f =>
      rw [hf] at hc
      simp only [fracText, List.cons_append, List.head?_cons, Option.some.injEq] at hc
      rw [← hc]; decide
    | none =>
      rw [hf] at hc
      simp only [fracText, List.nil_append] at hc
      rcases exp_head n.exp hn.exp_ok c hc with rfl | rfl <;> decide
  obtain ⟨hint, h⟩ := digits_split _ _ _ _ ha.int_digits hb.int_digits (tail_nd a ha) (tail_nd b hb) h
  have exp_nd : ∀ n : JNumber, n.WF → ∀ c, (expText n.exp).head? = some c → ¬ IsDigit c := by
    intro n hn c hc
    rcases exp_head n.exp hn.exp_ok c hc with rfl | rfl <;> decide
  have hfe : a.frac = b.frac ∧ a.exp = b.exp := by
    cases hf : a.frac with
    | some f =>
      cases hf' : b.frac with
      | some f' =>
        rw [hf, hf'] at h
        simp only [fracText, List.cons_append, List.cons.injEq, true_and] at h
        obtain ⟨h1, h2⟩ := digits_split _ _ _ _ (ha.frac_ok f hf).2 (hb.frac_ok f' hf').2
          (exp_nd a ha) (exp_nd b hb) h
        exact ⟨by rw [h1], expText_inj ha.exp_ok hb.exp_ok h2⟩
      | none =>
        rw [hf, hf'] at h
        simp only [fracText, List.nil_append] at h
        have := exp_head b.exp hb.exp_ok 46 (by rw [← h]; rfl)
        exact absurd this (by decide)
    | none =>
      cases hf' : b.frac with
      | some f' =>
        rw [hf, hf'] at h
        simp only [fracText, List.nil_append] at h
        have := exp_head a.exp ha.exp_ok 46 (by rw [h]; rfl)
        exact absurd this (by decide)
      | none =>
        rw [hf, hf'] at h
        exact ⟨rfl, expText_inj ha.exp_ok hb.exp_ok (by simpa [fracText] using h)⟩
  cases a; cases b
  simp_all

/-- A text denotes at most one number. -/
theorem IsJsonNumber.unique {t : List UInt8} {v w : ℚ} (h : IsJsonNumber t v) (h' : IsJsonNumber t w) : v = w := by
  obtain ⟨a, ha, rfl, rfl⟩ := h
  obtain ⟨b, hb, hb2, rfl⟩ := h'
  rw [JNumber.text_inj hb ha hb2]

end Lexi.Spec
