import Verif.Spec.SameDoc
import Verif.Props.Meaning

/-!
# C116: equal documents exactly for equal values
-/

namespace Lexi
open Spec Soft Dtoa

/-! ### Texts end where they end -/

/-- What may follow a value in a document. -/
def Stops (r : Bytes) : Prop := r = [] ∨ ∃ c w, r = c :: w ∧ (c = 44 ∨ c = 93 ∨ c = 125)

/-- A byte that neither ends a value nor starts a string, an array or an object. -/
def Plain (c : UInt8) : Prop := c ≠ 44 ∧ c ≠ 93 ∧ c ≠ 125 ∧ c ≠ 34 ∧ c ≠ 91 ∧ c ≠ 123

theorem stops_split {t t' r r' : Bytes} (ht : ∀ c ∈ t, Plain c) (ht' : ∀ c ∈ t', Plain c) (hr : Stops r) (hr' : Stops r')
    (h : t ++ r = t' ++ r') : t = t' ∧ r = r' := by
  have no : ∀ (c : UInt8) (t r : Bytes), Plain c → Stops r → r ≠ c :: t := by
    rintro c t r ⟨h1, h2, h3, -⟩ (rfl | ⟨d, w, rfl, hd⟩) e
    · cases e
    · obtain ⟨rfl, -⟩ := List.cons.inj e
      rcases hd with rfl | rfl | rfl
      exacts [h1 rfl, h2 rfl, h3 rfl]
  induction t generalizing t' with
  | nil =>
    cases t' with
    | nil => exact ⟨rfl, h⟩
    | cons c t' => exact absurd h (no c _ r (ht' c (by simp)) hr)
  | cons c t ih =>
    cases t' with
    | nil => exact absurd h.symm (no c _ r' (ht c (by simp)) hr')
    | cons c' t' =>
      obtain ⟨rfl, h1⟩ := List.cons.inj h
      obtain ⟨rfl, h2⟩ := ih (fun b hb => ht b (List.mem_cons_of_mem _ hb)) (fun b hb => ht' b (List.mem_cons_of_mem _ hb)) h1
      exact ⟨rfl, h2⟩

theorem plain_number {b : UInt8} (h : NumberByte b) : Plain b := by
  refine ⟨?_, ?_, ?_, ?_, ?_, ?_⟩ <;> (rintro rfl; revert h; unfold NumberByte; decide)

theorem shows_plain {M : Meaning} {t : Bytes} (h : Shows M t) (hM : ∀ s, M ≠ .text s) : t ≠ [] ∧ ∀ c ∈ t, Plain c := by
  have lit : ∀ s : Bytes, (s ≠ [] ∧ ∀ c ∈ s, c ≠ 44 ∧ c ≠ 93 ∧ c ≠ 125 ∧ c ≠ 34 ∧ c ≠ 91 ∧ c ≠ 123) → t = s →
      t ≠ [] ∧ ∀ c ∈ t, Plain c := fun s hs e => e ▸ hs
  cases M with
  | null => exact lit _ (by decide) h
  | bool b => exact lit _ (by cases b <;> decide) h
  | text s => exact absurd rfl (hM s)
  | int z =>
    rw [show t = _ from h]
    obtain ⟨n, hwf, hn, -⟩ := canonical_json (decimalText_canonical z)
    rw [← hn]
    refine ⟨?_, fun c hc => plain_number (number_chars hwf c hc)⟩
    rw [text_eq]
    cases hi : n.int with
    | nil => exact absurd hi hwf.int_ne
    | cons c r => cases n.neg <;> simp
  | number q =>
    obtain ⟨n, hwf, -, rfl, -⟩ := h
    refine ⟨?_, fun c hc => plain_number (number_chars hwf c hc)⟩
    rw [text_eq]
    cases hi : n.int with
    | nil => exact absurd hi hwf.int_ne
    | cons c r => cases n.neg <;> simp
  | nan => exact lit _ (by decide) h
  | infinity neg => exact lit _ (by cases neg <;> decide) h

/-- A leaf and its text: the text shows what the leaf means, also before other bytes. -/
def LeafText (M : Meaning) (t : Bytes) : Prop := Shows M t ∧ ∀ s, M = .text s → ∀ r, readString (t ++ r) = some (s, r)

theorem readString_head {t r s : Bytes} (h : readString t = some (s, r)) : ∃ w, t = 34 :: w := by
  cases t with
  | nil => simp [readString] at h
  | cons c cs =>
    by_cases hc : c = 34
    · exact ⟨cs, by rw [hc]⟩
    · unfold readString at h
      split at h
      · rename_i heq; exact absurd (List.cons.inj heq).1 hc
      · cases h

/-- A leaf starts like no array or object and not like the end of one. -/
theorem leaf_head {M : Meaning} {t : Bytes} (h : LeafText M t) :
    ∃ c w, t = c :: w ∧ c ≠ 44 ∧ c ≠ 93 ∧ c ≠ 125 ∧ c ≠ 91 ∧ c ≠ 123 := by
  by_cases hM : ∃ s, M = .text s
  · obtain ⟨s, rfl⟩ := hM
    obtain ⟨w, rfl⟩ := readString_head (show readString t = _ from h.1)
    exact ⟨34, w, rfl, by decide⟩
  · obtain ⟨h1, h2⟩ := shows_plain h.1 fun s e => hM ⟨s, e⟩
    cases t with
    | nil => exact absurd rfl h1
    | cons c w =>
      obtain ⟨a, b, d, -, e, f⟩ := h2 c (by simp)
      exact ⟨c, w, rfl, a, b, d, e, f⟩

theorem leaf_split {M M' : Meaning} {t t' r r' : Bytes} (h : LeafText M t) (h' : LeafText M' t') (hr : Stops r) (hr' : Stops r')
    (e : t ++ r = t' ++ r') : M = M' ∧ r = r' := by
  have mixed : ∀ {M M' : Meaning} {t t' r r' : Bytes}, LeafText M t → LeafText M' t' → (∃ s, M = .text s) → (¬ ∃ s, M' = .text s) →
      t ++ r ≠ t' ++ r' := by
    rintro M M' t t' r r' h h' ⟨s, rfl⟩ hM' e
    obtain ⟨w, rfl⟩ := readString_head (show readString t = _ from h.1)
    obtain ⟨h1, h2⟩ := shows_plain h'.1 fun s e => hM' ⟨s, e⟩
    cases t' with
    | nil => exact h1 rfl
    | cons c w' => exact (h2 c (by simp)).2.2.2.1 (List.cons.inj e).1.symm
  by_cases hM : ∃ s, M = .text s
  · by_cases hM' : ∃ s, M' = .text s
    · obtain ⟨s, rfl⟩ := hM
      obtain ⟨s', rfl⟩ := hM'
      have a := h.2 s rfl r
      rw [e, h'.2 s' rfl r'] at a
      simp only [Option.some.injEq, Prod.mk.injEq] at a
      exact ⟨by rw [a.1], a.2.symm⟩
    · exact absurd e (mixed h h' hM hM')
  · by_cases hM' : ∃ s, M' = .text s
    · exact absurd e.symm (mixed h' h hM' hM)
    · obtain ⟨rfl, hr⟩ := stops_split (shows_plain h.1 fun s e => hM ⟨s, e⟩).2 (shows_plain h'.1 fun s e => hM' ⟨s, e⟩).2 hr hr' e
      exact ⟨C114_unique _ _ _ h.1 h'.1, hr⟩

section
variable {α β : Type} {T : α → Bytes → Prop} {K : Bytes → Bytes → Prop} {T' : β → Bytes → Prop} {K' : Bytes → Bytes → Prop}
  {P : α → Prop} {P' : β → Prop} {μ : α → Meaning} {ν : β → Meaning}

theorem doc_head (hT : ∀ a t, P a → T a t → LeafText (μ a) t) (d : Doc α) (hd : d.All P) (t : Bytes) (ht : d.Text T K t) :
    ∃ c w, t = c :: w ∧ c ≠ 93 ∧ c ≠ 125 := by
  cases d with
  | leaf a =>
    obtain ⟨c, w, h, -, h1, h2, -⟩ := leaf_head (hT a t hd ht)
    exact ⟨c, w, h, h1, h2⟩
  | arr es => obtain ⟨u, -, rfl⟩ := ht; exact ⟨_, _, rfl, by decide⟩
  | obj ms => obtain ⟨u, -, rfl⟩ := ht; exact ⟨_, _, rfl, by decide⟩

/-- The rest of an array from behind an element on. -/
theorem docs_rest {e : Doc α} {es : Docs α} {t : Bytes} (h : (Docs.cons e es).Text T K t) (r : Bytes) :
    ∃ u rest, e.Text T K u ∧ t ++ 93 :: r = u ++ rest ∧
      ((es = .nil ∧ rest = 93 :: r) ∨ (es ≠ .nil ∧ ∃ w, es.Text T K w ∧ rest = 44 :: (w ++ 93 :: r))) := by
  obtain ⟨u, w, hu, hw, rfl⟩ := h
  cases es with
  | nil => exact ⟨u, _, hu, rfl, Or.inl ⟨rfl, rfl⟩⟩
  | cons f fs => exact ⟨u, _, hu, by simp, Or.inr ⟨by simp, w, hw, rfl⟩⟩

theorem members_rest {k : Bytes} {e : Doc α} {es : Members α} {t : Bytes} (h : (Members.cons k e es).Text T K t) (r : Bytes) :
    ∃ x u rest, K k x ∧ e.Text T K u ∧ t ++ 125 :: r = x ++ 58 :: (u ++ rest) ∧
      ((es = .nil ∧ rest = 125 :: r) ∨ (es ≠ .nil ∧ ∃ w, es.Text T K w ∧ rest = 44 :: (w ++ 125 :: r))) := by
  obtain ⟨x, u, w, hx, hu, hw, rfl⟩ := h
  cases es with
  | nil => exact ⟨x, u, _, hx, hu, by simp, Or.inl ⟨rfl, rfl⟩⟩
  | cons f fs => exact ⟨x, u, _, hx, hu, by simp, Or.inr ⟨by simp, w, hw, rfl⟩⟩

mutual
theorem doc_unique (hT : ∀ a t, P a → T a t → LeafText (μ a) t) (hT' : ∀ a t, P' a → T' a t → LeafText (ν a) t)
    (hK : ∀ k x r, K k x → readString (x ++ r) = some (k, r)) (hK' : ∀ k x r, K' k x → readString (x ++ r) = some (k, r)) :
    ∀ (d : Doc α) (e : Doc β) (t t' r r' : Bytes), d.All P → e.All P' → d.Text T K t → e.Text T' K' t' → Stops r → Stops r' →
      t ++ r = t' ++ r' → d.Same (fun a b => μ a = ν b) e ∧ r = r'
  | .leaf a, .leaf b, t, t', r, r', hd, he, ht, ht', hr, hr', h => leaf_split (hT a t hd ht) (hT' b t' he ht') hr hr' h
  | .leaf a, .arr es, t, t', r, r', hd, he, ht, ht', hr, hr', h => by
    obtain ⟨c, w, rfl, -, -, -, h1, -⟩ := leaf_head (hT a t hd ht)
    obtain ⟨u, -, rfl⟩ := ht'
    exact absurd (List.cons.inj h).1 h1
  | .leaf a, .obj es, t, t', r, r', hd, he, ht, ht', hr, hr', h => by
    obtain ⟨c, w, rfl, -, -, -, -, h1⟩ := leaf_head (hT a t hd ht)
    obtain ⟨u, -, rfl⟩ := ht'
    exact absurd (List.cons.inj h).1 h1
  | .arr es, .leaf b, t, t', r, r', hd, he, ht, ht', hr, hr', h => by
    obtain ⟨c, w, rfl, -, -, -, h1, -⟩ := leaf_head (hT' b t' he ht')
    obtain ⟨u, -, rfl⟩ := ht
    exact absurd (List.cons.inj h).1.symm h1
  | .obj es, .leaf b, t, t', r, r', hd, he, ht, ht', hr, hr', h => by
    obtain ⟨c, w, rfl, -, -, -, -, h1⟩ := leaf_head (hT' b t' he ht')
    obtain ⟨u, -, rfl⟩ := ht
    exact absurd (List.cons.inj h).1.symm h1
  | .arr es, .arr fs, t, t', r, r', hd, he, ht, ht', hr, hr', h => by
    obtain ⟨u, hu, rfl⟩ := ht
    obtain ⟨u', hu', rfl⟩ := ht'
    exact docs_unique hT hT' hK hK' es fs u u' r r' hd he hu hu' (by simpa using h)
  | .obj es, .obj fs, t, t', r, r', hd, he, ht, ht', hr, hr', h => by
    obtain ⟨u, hu, rfl⟩ := ht
    obtain ⟨u', hu', rfl⟩ := ht'
    exact members_unique hT hT' hK hK' es fs u u' r r' hd he hu hu' (by simpa using h)
  | .arr es, .obj fs, t, t', r, r', hd, he, ht, ht', hr, hr', h => by
    obtain ⟨u, -, rfl⟩ := ht
    obtain ⟨u', -, rfl⟩ := ht'
    exact absurd (List.cons.inj h).1 (by decide)
  | .obj es, .arr fs, t, t', r, r', hd, he, ht, ht', hr, hr', h => by
    obtain ⟨u, -, rfl⟩ := ht
    obtain ⟨u', -, rfl⟩ := ht'
    exact absurd (List.cons.inj h).1 (by decide)

theorem docs_unique (hT : ∀ a t, P a → T a t → LeafText (μ a) t) (hT' : ∀ a t, P' a → T' a t → LeafText (ν a) t)
    (hK : ∀ k x r, K k x → readString (x ++ r) = some (k, r)) (hK' : ∀ k x r, K' k x → readString (x ++ r) = some (k, r)) :
    ∀ (d : Docs α) (e : Docs β) (t t' r r' : Bytes), d.All P → e.All P' → d.Text T K t → e.Text T' K' t' →
      t ++ 93 :: r = t' ++ 93 :: r' → d.Same (fun a b => μ a = ν b) e ∧ r = r'
  | .nil, .nil, t, t', r, r', hd, he, ht, ht', h => by
    rw [show t = [] from ht, show t' = [] from ht'] at h
    exact ⟨trivial, (List.cons.inj h).2⟩
  | .nil, .cons f fs, t, t', r, r', hd, he, ht, ht', h => by
    rw [show t = [] from ht] at h
    obtain ⟨u, rest, hu, e, -⟩ := docs_rest ht' r'
    obtain ⟨c, w, rfl, h1, -⟩ := doc_head hT' f he.1 u hu
    rw [e] at h
    exact absurd (List.cons.inj h).1.symm h1
  | .cons f fs, .nil, t, t', r, r', hd, he, ht, ht', h => by
    rw [show t' = [] from ht'] at h
    obtain ⟨u, rest, hu, e, -⟩ := docs_rest ht r
    obtain ⟨c, w, rfl, h1, -⟩ := doc_head hT f hd.1 u hu
    rw [e] at h
    exact absurd (List.cons.inj h).1 h1
  | .cons e es, .cons f fs, t, t', r, r', hd, he, ht, ht', h => by
    obtain ⟨u, rest, hu, e1, h1⟩ := docs_rest ht r
    obtain ⟨u', rest', hu', e1', h1'⟩ := docs_rest ht' r'
    rw [e1, e1'] at h
    have st : ∀ {γ : Type} {p : γ → Prop} {x : Prop} {y : Prop} {rest r : Bytes} {q : γ → Bytes},
        (x ∧ rest = 93 :: r ∨ y ∧ ∃ w, p w ∧ rest = 44 :: q w) → Stops rest := by
      rintro γ p x y rest r q (⟨-, h⟩ | ⟨-, w, -, h⟩)
      · exact Or.inr ⟨_, _, h, Or.inr (Or.inl rfl)⟩
      · exact Or.inr ⟨_, _, h, Or.inl rfl⟩
    obtain ⟨same, hrest⟩ := doc_unique hT hT' hK hK' e f u u' rest rest' hd.1 he.1 hu hu' (st h1) (st h1') h
    rcases h1 with ⟨rfl, rfl⟩ | ⟨hne, w, hw, rfl⟩
    · rcases h1' with ⟨rfl, rfl⟩ | ⟨hne, w', hw', rfl⟩
      · exact ⟨⟨same, trivial⟩, (List.cons.inj hrest).2⟩
      · exact absurd (List.cons.inj hrest).1 (by decide)
    · rcases h1' with ⟨rfl, rfl⟩ | ⟨hne, w', hw', rfl⟩
      · exact absurd (List.cons.inj hrest).1 (by decide)
      · obtain ⟨a, b⟩ := docs_unique hT hT' hK hK' es fs w w' r r' hd.2 he.2 hw hw' (List.cons.inj hrest).2
        exact ⟨⟨same, a⟩, b⟩

theorem members_unique (hT : ∀ a t, P a → T a t → LeafText (μ a) t) (hT' : ∀ a t, P' a → T' a t → LeafText (ν a) t)
    (hK : ∀ k x r, K k x → readString (x ++ r) = some (k, r)) (hK' : ∀ k x r, K' k x → readString (x ++ r) = some (k, r)) :
    ∀ (d : Members α) (e : Members β) (t t' r r' : Bytes), d.All P → e.All P' → d.Text T K t → e.Text T' K' t' →
      t ++ 125 :: r = t' ++ 125 :: r' → d.Same (fun a b => μ a = ν b) e ∧ r = r'
  | .nil, .nil, t, t', r, r', hd, he, ht, ht', h => by
    rw [show t = [] from ht, show t' = [] from ht'] at h
    exact ⟨trivial, (List.cons.inj h).2⟩
  | .nil, .cons k f fs, t, t', r, r', hd, he, ht, ht', h => by
    rw [show t = [] from ht] at h
    obtain ⟨x, u, rest, hx, -, e, -⟩ := members_rest ht' r'
    have hk := hK' k x [] hx
    rw [List.append_nil] at hk
    obtain ⟨w, rfl⟩ := readString_head hk
    rw [e] at h
    exact absurd (List.cons.inj h).1 (by decide)
  | .cons k f fs, .nil, t, t', r, r', hd, he, ht, ht', h => by
    rw [show t' = [] from ht'] at h
    obtain ⟨x, u, rest, hx, -, e, -⟩ := members_rest ht r
    have hk := hK k x [] hx
    rw [List.append_nil] at hk
    obtain ⟨w, rfl⟩ := readString_head hk
    rw [e] at h
    exact absurd (List.cons.inj h).1 (by decide)
  | .cons k e es, .cons l f fs, t, t', r, r', hd, he, ht, ht', h => by
    obtain ⟨x, u, rest, hx, hu, e1, h1⟩ := members_rest ht r
    obtain ⟨x', u', rest', hx', hu', e1', h1'⟩ := members_rest ht' r'
    rw [e1, e1'] at h
    have hk := hK k x (58 :: (u ++ rest)) hx
    rw [h, hK' l x' _ hx'] at hk
    simp only [Option.some.injEq, Prod.mk.injEq, List.cons.injEq, true_and] at hk
    obtain ⟨rfl, h⟩ := hk
    have st : ∀ {γ : Type} {p : γ → Prop} {x : Prop} {y : Prop} {rest r : Bytes} {q : γ → Bytes},
        (x ∧ rest = 125 :: r ∨ y ∧ ∃ w, p w ∧ rest = 44 :: q w) → Stops rest := by
      rintro γ p x y rest r q (⟨-, h⟩ | ⟨-, w, -, h⟩)
      · exact Or.inr ⟨_, _, h, Or.inr (Or.inr rfl)⟩
      · exact Or.inr ⟨_, _, h, Or.inl rfl⟩
    obtain ⟨same, hrest⟩ := doc_unique hT hT' hK hK' e f u u' rest rest' hd.1 he.1 hu hu' (st h1) (st h1') h.symm
    rcases h1 with ⟨rfl, rfl⟩ | ⟨hne, w, hw, rfl⟩
    · rcases h1' with ⟨rfl, rfl⟩ | ⟨hne, w', hw', rfl⟩
      · exact ⟨⟨rfl, same, trivial⟩, (List.cons.inj hrest).2⟩
      · exact absurd (List.cons.inj hrest).1 (by decide)
    · rcases h1' with ⟨rfl, rfl⟩ | ⟨hne, w', hw', rfl⟩
      · exact absurd (List.cons.inj hrest).1 (by decide)
      · obtain ⟨a, b⟩ := members_unique hT hT' hK hK' es fs w w' r r' hd.2 he.2 hw hw' (List.cons.inj hrest).2
        exact ⟨⟨rfl, same, a⟩, b⟩
end

mutual
theorem doc_same {T : α → Bytes → Prop} {T' : β → Bytes → Prop} {R : α → β → Prop} {K : Bytes → Bytes → Prop}
    (hT : ∀ a b t t', P a → P' b → R a b → T a t → T' b t' → t = t') (hK : ∀ k x x', K k x → K k x' → x = x') :
    ∀ (d : Doc α) (e : Doc β) (t t' : Bytes), d.All P → e.All P' → d.Same R e → d.Text T K t → e.Text T' K t' → t = t'
  | .leaf a, .leaf b, t, t', hd, he, h, ht, ht' => hT a b t t' hd he h ht ht'
  | .arr es, .arr fs, t, t', hd, he, h, ht, ht' => by
    obtain ⟨u, hu, rfl⟩ := ht
    obtain ⟨u', hu', rfl⟩ := ht'
    rw [docs_same hT hK es fs u u' hd he h hu hu']
  | .obj es, .obj fs, t, t', hd, he, h, ht, ht' => by
    obtain ⟨u, hu, rfl⟩ := ht
    obtain ⟨u', hu', rfl⟩ := ht'
    rw [members_same hT hK es fs u u' hd he h hu hu']

theorem docs_same {T : α → Bytes → Prop} {T' : β → Bytes → Prop} {R : α → β → Prop} {K : Bytes → Bytes → Prop}
    (hT : ∀ a b t t', P a → P' b → R a b → T a t → T' b t' → t = t') (hK : ∀ k x x', K k x → K k x' → x = x') :
    ∀ (d : Docs α) (e : Docs β) (t t' : Bytes), d.All P → e.All P' → d.Same R e → d.Text T K t → e.Text T' K t' → t = t'
  | .nil, .nil, t, t', hd, he, h, ht, ht' => (show t = [] from ht).trans (show t' = [] from ht').symm
  | .cons e es, .cons f fs, t, t', hd, he, h, ht, ht' => by
    obtain ⟨u, w, hu, hw, rfl⟩ := ht
    obtain ⟨u', w', hu', hw', rfl⟩ := ht'
    have h1 := doc_same hT hK e f u u' hd.1 he.1 h.1 hu hu'
    have h2 := docs_same hT hK es fs w w' hd.2 he.2 h.2 hw hw'
    have h3 := h.2
    cases es <;> cases fs <;> first | exact h3.elim | skip
    · exact h1
    · rw [h1, h2]

theorem members_same {T : α → Bytes → Prop} {T' : β → Bytes → Prop} {R : α → β → Prop} {K : Bytes → Bytes → Prop}
    (hT : ∀ a b t t', P a → P' b → R a b → T a t → T' b t' → t = t') (hK : ∀ k x x', K k x → K k x' → x = x') :
    ∀ (d : Members α) (e : Members β) (t t' : Bytes), d.All P → e.All P' → d.Same R e → d.Text T K t → e.Text T' K t' → t = t'
  | .nil, .nil, t, t', hd, he, h, ht, ht' => (show t = [] from ht).trans (show t' = [] from ht').symm
  | .cons k e es, .cons l f fs, t, t', hd, he, h, ht, ht' => by
    obtain ⟨x, u, w, hx, hu, hw, rfl⟩ := ht
    obtain ⟨x', u', w', hx', hu', hw', rfl⟩ := ht'
    obtain ⟨rfl, h1, h2⟩ := h
    have h0 := hK k x x' hx hx'
    have h1 := doc_same hT hK e f u u' hd.1 he.1 h1 hu hu'
    have h3 := members_same hT hK es fs w w' hd.2 he.2 h2 hw hw'
    cases es <;> cases fs <;> first | exact h2.elim | skip
    · rw [h0, h1]
    · rw [h0, h1, h3]
end
end

/-! ### C116 -/

theorem arg_leaf {p : Platform} (hp : p.Supported) {sgn : Bool} {env : Env} (henv : EnvOk env) (a : Arg) (t : Bytes)
    (he : a.Exists p) (h : JsonText p sgn env a t) : LeafText a.meaning t := by
  obtain ⟨junk, hj, h⟩ := h
  obtain ⟨t', h1, h2⟩ := C114_shows ⟨p, sgn, .default, env, junk⟩ ⟨hp, henv, hj⟩ rfl a he
  obtain rfl := Res.ok.inj (h.symm.trans h1)
  refine ⟨h2, fun s hs r => ?_⟩
  have hr := Arg.jsonify_render ⟨p, sgn, .default, env, junk⟩ ⟨hp, henv, hj⟩ rfl a he
  rw [h, hs] at hr
  obtain ⟨t', h3, -, h4⟩ := C16_jsonify_decodes sgn s r
  obtain rfl := Res.ok.inj (hr.trans h3)
  exact h4

theorem key_leaf {p : Platform} {sgn : Bool} {env : Env} (k x r : Bytes) (h : JsonText p sgn env (.text (.stdString k)) x) :
    readString (x ++ r) = some (k, r) := by
  obtain ⟨junk, hj, h⟩ := h
  obtain ⟨t, h3, -, h4⟩ := C16_jsonify_decodes sgn k r
  obtain rfl := Res.ok.inj ((show jsonifyStr sgn k = _ from h).symm.trans h3)
  exact h4

theorem render_junk {m m' : Machine} (hm : m.Ok) (hm' : m'.Ok) (hs : m.sgn = m'.sgn) (he : m.env = m'.env) (M : Meaning) :
    m.render M = m'.render M := by
  cases M with
  | text s => rw [Machine.render, Machine.render, hs]
  | number q =>
    rw [Machine.render, Machine.render]
    by_cases h : ∃ u, DFinite u ∧ dValue u = q
    · rw [dif_pos h, dif_pos h]
      obtain ⟨n, -, -, -, -, -, -, -, hn⟩ := text_spec m.env hm.env _ h.choose_spec.1
      rw [← he, hn _ _ (hm.junk _), hn _ _ (hm'.junk _)]
    · rw [dif_neg h, dif_neg h]
  | _ => rfl

/-- C116.  Documents put together from `lexi::jsonify` of their leaves and keys, commas, colons and brackets, on any two machines: the
texts are equal only if the documents have the same shape, the same keys in the same order and the same values. -/
theorem C116_decodes (p p' : Platform) (hp : p.Supported) (hp' : p'.Supported) (sgn sgn' : Bool) (env env' : Env) (henv : EnvOk env)
    (henv' : EnvOk env') (d e : Doc Arg) (hd : d.All fun a => a.Exists p) (he : e.All fun a => a.Exists p') (t : Bytes)
    (ht : d.Text (JsonText p sgn env) (fun k => JsonText p sgn env (.text (.stdString k))) t)
    (ht' : e.Text (JsonText p' sgn' env') (fun k => JsonText p' sgn' env' (.text (.stdString k))) t) :
    d.Same (fun a b => a.meaning = b.meaning) e :=
  (doc_unique (μ := Arg.meaning) (ν := Arg.meaning) (fun a t => arg_leaf hp henv a t) (fun a t => arg_leaf hp' henv' a t)
    (fun k x r => key_leaf k x r) (fun k x r => key_leaf k x r) d e t t [] [] hd he ht ht' (Or.inl rfl) (Or.inl rfl) rfl).1

/-- C116, one after the other: a stream of two documents is divided in one way only. -/
theorem C116_stream (p : Platform) (hp : p.Supported) (sgn : Bool) (env : Env) (henv : EnvOk env) (d e d' e' : Doc Arg)
    (hd : d.All fun a => a.Exists p) (he : e.All fun a => a.Exists p) (hd' : d'.All fun a => a.Exists p)
    (he' : e'.All fun a => a.Exists p) (t u t' u' : Bytes)
    (ht : d.Text (JsonText p sgn env) (fun k => JsonText p sgn env (.text (.stdString k))) t)
    (hu : e.Text (JsonText p sgn env) (fun k => JsonText p sgn env (.text (.stdString k))) u)
    (ht' : d'.Text (JsonText p sgn env) (fun k => JsonText p sgn env (.text (.stdString k))) t')
    (hu' : e'.Text (JsonText p sgn env) (fun k => JsonText p sgn env (.text (.stdString k))) u')
    (h : t ++ 44 :: u = t' ++ 44 :: u') :
    d.Same (fun a b => a.meaning = b.meaning) d' ∧ e.Same (fun a b => a.meaning = b.meaning) e' := by
  obtain ⟨h1, h2⟩ := doc_unique (μ := Arg.meaning) (ν := Arg.meaning) (fun a t => arg_leaf hp henv a t)
    (fun a t => arg_leaf hp henv a t) (fun k x r => key_leaf k x r) (fun k x r => key_leaf k x r) d d' t t' (44 :: u) (44 :: u') hd hd'
    ht ht' (Or.inr ⟨_, _, rfl, Or.inl rfl⟩) (Or.inr ⟨_, _, rfl, Or.inl rfl⟩) h
  obtain rfl := (List.cons.inj h2).2
  exact ⟨h1, C116_decodes p p hp hp sgn sgn env env henv henv e e' he he' u hu hu'⟩

/-- C116.  On one machine the texts of two documents are equal exactly if they have the same shape, the same keys in the same order
and the same values, whatever the types of the values and the contents of the buffers. -/
theorem C116_same (p : Platform) (hp : p.Supported) (sgn : Bool) (env : Env) (henv : EnvOk env) (d e : Doc Arg)
    (hd : d.All fun a => a.Exists p) (he : e.All fun a => a.Exists p) (t t' : Bytes)
    (ht : d.Text (JsonText p sgn env) (fun k => JsonText p sgn env (.text (.stdString k))) t)
    (ht' : e.Text (JsonText p sgn env) (fun k => JsonText p sgn env (.text (.stdString k))) t') :
    t = t' ↔ d.Same (fun a b => a.meaning = b.meaning) e := by
  constructor
  · rintro rfl
    exact C116_decodes p p hp hp sgn sgn env env henv henv d e hd he t ht ht'
  · have leaf : ∀ (a b : Arg) (t t' : Bytes), a.Exists p → b.Exists p → a.meaning = b.meaning → JsonText p sgn env a t →
        JsonText p sgn env b t' → t = t' := by
      rintro a b t t' ha hb h ⟨junk, hj, h1⟩ ⟨junk', hj', h2⟩
      rw [Arg.jsonify_render _ ⟨hp, henv, hj⟩ rfl a ha, h] at h1
      rw [Arg.jsonify_render _ ⟨hp, henv, hj'⟩ rfl b hb] at h2
      exact Res.ok.inj (h1.symm.trans ((render_junk (m := ⟨p, sgn, .default, env, junk⟩)
        (m' := ⟨p, sgn, .default, env, junk'⟩) ⟨hp, henv, hj⟩ ⟨hp, henv, hj'⟩ rfl rfl _).trans h2))
    intro h
    exact doc_same leaf (fun k x x' h h' => leaf (.text (.stdString k)) (.text (.stdString k)) x x' trivial trivial rfl h h') d e t t' hd he h ht ht'

/-- `[1,[]]` and `[1.0,[]]` are different, `["a",0.5]` from a character and a float and from a string and a double are the same. -/
example : ¬ (Doc.arr (.cons (.leaf (.int (.i8 1))) (.cons (.arr .nil) .nil))).Same (fun a b => Arg.meaning a = Arg.meaning b)
      (Doc.arr (.cons (.leaf (.double 0x3FF0000000000000)) (.cons (.arr .nil) .nil))) ∧
    (Doc.arr (.cons (.leaf (.char 97)) (.cons (.leaf (.float 0x3F000000)) .nil))).Same (fun a b => Arg.meaning a = Arg.meaning b)
      (Doc.arr (.cons (.leaf (.text (.stdString [97]))) (.cons (.leaf (.double 0x3FE0000000000000)) .nil))) := by
  refine ⟨fun h => ?_, rfl, ?_, trivial⟩
  · have h1 : (Arg.int (.i8 1)).meaning = (Arg.double 0x3FF0000000000000).meaning := h.1
    rw [Arg.meaning, Arg.meaning, dMeaning_finite (by decide +kernel)] at h1
    cases h1
  · change (Arg.float _).meaning = (Arg.double _).meaning
    rw [Arg.meaning, Arg.meaning, ← dMeaning_ofFloat, ← dMeaning_ofDouble]
    exact congrArg _ (by decide +kernel)

/-- The document `["a",null]` has a text, so the hypotheses of `C116_same` can be met. -/
example : let d : Doc Arg := .arr (.cons (.leaf (.char 97)) (.cons (.leaf .null) .nil))
    (d.All fun a => a.Exists lp64) ∧
    ∃ t, d.Text (JsonText lp64 true sampleEnv) (fun k => JsonText lp64 true sampleEnv (.text (.stdString k))) t := by
  intro d
  exact ⟨⟨trivial, trivial, trivial⟩, (C69_document lp64 (by simp [Platform.Supported, lp64]) true sampleEnv sampleEnv_ok d
    ⟨⟨trivial, trivial⟩, ⟨trivial, trivial⟩, trivial⟩).1⟩

end Lexi
