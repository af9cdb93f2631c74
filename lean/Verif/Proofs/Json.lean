import Verif.Spec.Json
import Verif.Proofs.Str
import Verif.Proofs.Strtold

/-!
# The JSON reader on assembled documents
-/

namespace Lexi
open Spec

/-- The text does not continue a number. -/
def Stop (r : Bytes) : Prop :=
  ∀ c, r.head? = some c → ¬ IsDigit c ∧ c ≠ 46 ∧ c ≠ 101 ∧ c ≠ 69

theorem readDigits_append {ds r : Bytes} (h : ∀ b ∈ ds, IsDigit b) (hr : ∀ c, r.head? = some c → ¬ IsDigit c) :
    readDigits (ds ++ r) = (ds, r) := by
  induction ds with
  | nil =>
    cases r with
    | nil => rfl
    | cons c r =>
      have := hr c rfl
      rw [List.nil_append, readDigits, if_neg]
      intro hc; exact this hc
  | cons d ds ih =>
    rw [List.cons_append, readDigits, if_pos (show 48 ≤ d ∧ d ≤ 57 from h d (by simp)),
      ih fun b hb => h b (by simp [hb])]

theorem readExp_append {e : Option JExp} {r : Bytes} (he : ∀ x, e = some x → x.WF) (hr : Stop r) :
    readExp (expText e ++ r) = some (e, r) := by
  cases e with
  | none =>
    cases r with
    | nil => rfl
    | cons c r =>
      have := hr c rfl
      simp [expText, readExp, this.2.2.1, this.2.2.2]
  | some x =>
    obtain ⟨hm, hs, hne, hd⟩ := he x rfl
    obtain ⟨m, sg, ds⟩ := x
    dsimp only at hm hs hne hd
    have h1 := readDigits_append hd fun c hc => (hr c hc).1
    have h2 : readSign (sg ++ (ds ++ r)) = (sg, ds ++ r) := by
      cases ds with
      | nil => exact absurd rfl hne
      | cons d ds =>
        have hdd := hd d (by simp)
        have n1 : d ≠ 45 := by rintro rfl; exact absurd hdd (by decide)
        have n2 : d ≠ 43 := by rintro rfl; exact absurd hdd (by decide)
        rcases hs with rfl | rfl | rfl <;> simp [readSign, n1, n2]
    have : expText (some ⟨m, sg, ds⟩) ++ r = m :: (sg ++ (ds ++ r)) := by
      simp [expText, JExp.text]
    rw [this, readExp, if_pos hm]
    dsimp only
    rw [h2]; dsimp only; rw [h1]
    cases ds with
    | nil => exact absurd rfl hne
    | cons d ds => rfl

theorem expText_head {e : Option JExp} {r : Bytes} (he : ∀ x, e = some x → x.WF) (hr : Stop r) (c : UInt8)
    (hc : (expText e ++ r).head? = some c) : ¬ IsDigit c ∧ c ≠ 46 := by
  cases e with
  | none => exact ⟨(hr c hc).1, (hr c hc).2.1⟩
  | some x =>
    have : c = x.marker := by simpa [expText, JExp.text] using hc.symm
    rcases (he x rfl).1 with h | h <;> rw [this, h] <;> decide

theorem readFrac_append {f : Option Bytes} {e : Option JExp} {r : Bytes}
    (hf : ∀ x, f = some x → x ≠ [] ∧ ∀ b ∈ x, IsDigit b) (he : ∀ x, e = some x → x.WF) (hr : Stop r) :
    readFrac (fracText f ++ (expText e ++ r)) = some (f, expText e ++ r) := by
  have hh := expText_head he hr
  cases f with
  | none =>
    show readFrac (expText e ++ r) = _
    generalize expText e ++ r = s at hh
    cases s with
    | nil => rfl
    | cons c s =>
      have := (hh c rfl).2
      rw [readFrac]
      intro t ht
      exact this (by injection ht)
  | some x =>
    obtain ⟨hne, hd⟩ := hf x rfl
    show readFrac (46 :: (x ++ (expText e ++ r))) = _
    rw [readFrac, readDigits_append hd fun c hc => (hh c hc).1]
    cases x with
    | nil => exact absurd rfl hne
    | cons a b => rfl

/-- The greedy reader reads every number of the grammar when what follows cannot continue it. -/
theorem readNumber_append {n : JNumber} (hn : n.WF) {r : Bytes} (hr : Stop r) :
    readNumber (n.text ++ r) = some (n.value, r) := by
  obtain ⟨neg, ds, f, e⟩ := n
  obtain ⟨hne, hd, hl, hf, he⟩ := hn
  dsimp only at hne hd hl hf he
  have hrest : ∀ c, (fracText f ++ (expText e ++ r)).head? = some c → ¬ IsDigit c := by
    intro c hc
    cases f with
    | none => exact (expText_head he hr c hc).1
    | some x =>
      have : c = 46 := by simpa [fracText] using hc.symm
      rw [this]; decide
  have h1 := readDigits_append hd hrest
  have hint : readInt ((if neg then [45] else []) ++ (ds ++ (fracText f ++ (expText e ++ r)))) =
      some (neg, ds, fracText f ++ (expText e ++ r)) := by
    have h0 : readMinus ((if neg then [45] else []) ++ (ds ++ (fracText f ++ (expText e ++ r)))) =
        (neg, ds ++ (fracText f ++ (expText e ++ r))) := by
      cases neg with
      | true => rfl
      | false =>
        cases ds with
        | nil => exact absurd rfl hne
        | cons d ds =>
          have n1 : d ≠ 45 := by rintro rfl; exact absurd (hd 45 (by simp)) (by decide)
          simp [readMinus, n1]
    rw [readInt, h0]
    dsimp only
    rw [h1]
    dsimp only
    rw [if_neg]
    rintro (h | h)
    · exact hne h
    · exact hl h.1 h.2
  rw [text_eq]
  simp only [List.append_assoc] at hint ⊢
  rw [readNumber, hint]
  dsimp only
  rw [readFrac_append hf he hr]
  dsimp only
  rw [readExp_append he hr]

/-- First character of a value that is no white space and closes nothing. -/
def Opens (t : Bytes) : Prop :=
  ∃ c s, t = c :: s ∧ c ≠ 32 ∧ c ≠ 9 ∧ c ≠ 10 ∧ c ≠ 13 ∧ c ≠ 93 ∧ c ≠ 125

theorem Opens.skipWs {t : Bytes} (h : Opens t) (r : Bytes) : skipWs (t ++ r) = t ++ r := by
  obtain ⟨c, s, rfl, h1, h2, h3, h4, -⟩ := h
  simp [Spec.skipWs, h1, h2, h3, h4]

/-- A text read as the value `j`, whatever follows. -/
def ReadsAs (t : Bytes) (j : Json) : Prop :=
  Opens t ∧ ∀ fuel r, t.length ≤ fuel → Stop r → readValue fuel (t ++ r) = some (j, r)

theorem fuel_pos {t : Bytes} (h : Opens t) {fuel : Nat} (hf : t.length ≤ fuel) : ∃ f, fuel = f + 1 := by
  obtain ⟨c, s, rfl, -⟩ := h
  cases fuel with
  | zero => simp at hf
  | succ f => exact ⟨f, rfl⟩

theorem reads_number {n : JNumber} (hn : n.WF) : ReadsAs n.text (.num n.value) := by
  have hc : ∃ c s, n.text = c :: s ∧ (c = 45 ∨ IsDigit c) := by
    rw [text_eq]
    cases hi : n.int with
    | nil => exact absurd hi hn.int_ne
    | cons d ds =>
      cases n.neg with
      | true => exact ⟨45, _, rfl, Or.inl rfl⟩
      | false => exact ⟨d, _, rfl, Or.inr (hn.int_digits d (by rw [hi]; simp))⟩
  obtain ⟨c, s, hcs, hc⟩ := hc
  have ho : Opens n.text := by
    refine ⟨c, s, hcs, ?_⟩
    rcases hc with rfl | hc
    · decide
    · refine ⟨?_, ?_, ?_, ?_, ?_, ?_⟩ <;> · rintro rfl; exact absurd hc (by decide)
  refine ⟨ho, fun fuel r hf hr => ?_⟩
  obtain ⟨f, rfl⟩ := fuel_pos ho hf
  have h1 := readNumber_append hn hr
  rw [readValue, ho.skipWs]
  rw [hcs] at h1 ⊢
  rw [List.cons_append] at h1 ⊢
  have n1 : c ≠ 34 ∧ c ≠ 91 ∧ c ≠ 123 ∧ c ≠ 110 ∧ c ≠ 116 ∧ c ≠ 102 := by
    rcases hc with rfl | hc
    · decide
    · refine ⟨?_, ?_, ?_, ?_, ?_, ?_⟩ <;> · rintro rfl; exact absurd hc (by decide)
  have h2 : readLiteral (c :: (s ++ r)) = none := by
    rw [readLiteral]
    all_goals (intros; simp_all)
  split <;> simp_all

theorem reads_string {t s : Bytes} (h : ∀ r, readString (t ++ r) = some (s, r)) (hh : t.head? = some 34) :
    ReadsAs t (.str s) := by
  cases t with
  | nil => simp at hh
  | cons c t =>
    obtain rfl : c = 34 := by simpa using hh
    refine ⟨⟨34, t, rfl, by decide⟩, fun fuel r hf hr => ?_⟩
    cases fuel with
    | zero => simp at hf
    | succ f =>
      have := h r
      rw [List.cons_append] at this ⊢
      simp only [readValue, skipWs]
      simp [this]

theorem reads_null : ReadsAs (ascii "null") .null := by
  refine ⟨⟨110, ascii "ull", rfl, by decide⟩, fun fuel r hf hr => ?_⟩
  cases fuel with
  | zero => exact absurd hf (by decide)
  | succ f => rfl

theorem reads_bool (b : Bool) : ReadsAs (ascii (if b then "true" else "false")) (.bool b) := by
  cases b
  · refine ⟨⟨102, ascii "alse", rfl, by decide⟩, fun fuel r hf hr => ?_⟩
    cases fuel with
    | zero => exact absurd hf (by decide)
    | succ f => rfl
  · refine ⟨⟨116, ascii "rue", rfl, by decide⟩, fun fuel r hf hr => ?_⟩
    cases fuel with
    | zero => exact absurd hf (by decide)
    | succ f => rfl

section
variable {α : Type} {T : α → Bytes → Prop} {K : Bytes → Bytes → Prop} {M : α → Json → Prop} {P : α → Prop}

theorem stop_of {c : UInt8} (h : c = 44 ∨ c = 93 ∨ c = 125) (r : Bytes) : Stop (c :: r) := by
  intro d hd
  obtain rfl : c = d := by simpa using hd
  rcases h with rfl | rfl | rfl <;> decide

theorem readValue_arr (f : Nat) (t : Bytes) : readValue (f + 1) (91 :: t) =
    match skipWs t with
    | 93 :: r => some (.arr .nil, r)
    | t => (readElems f t).map fun p => (.arr p.1, p.2) := rfl

theorem readValue_obj (f : Nat) (t : Bytes) : readValue (f + 1) (123 :: t) =
    match skipWs t with
    | 125 :: r => some (.obj .nil, r)
    | t => (readMembers f t).map fun p => (.obj p.1, p.2) := rfl

mutual
theorem doc_reads (hT : ∀ a t, P a → T a t → ∃ j, M a j ∧ ReadsAs t j)
    (hK : ∀ k t, K k t → t.head? = some 34 ∧ ∀ r, readString (t ++ r) = some (k, r)) :
    ∀ (d : Doc α) (t : Bytes), d.All P → d.Text T K t → ∃ j, d.Means M j ∧ ReadsAs t j
  | .leaf a, t, hP, h => hT a t hP h
  | .arr es, t, hP, h => by
    obtain ⟨u, hu, rfl⟩ := h
    obtain ⟨js, hm, hr⟩ := docs_reads hT hK es u hP hu
    refine ⟨.arr js, ⟨js, hm, rfl⟩, ⟨91, u ++ [93], rfl, by decide⟩, fun fuel r hf hs => ?_⟩
    cases fuel with
    | zero => simp at hf
    | succ f =>
      have e : 91 :: (u ++ [93]) ++ r = 91 :: (u ++ 93 :: r) := by simp
      rw [e, readValue_arr]
      rcases hr with ⟨rfl, rfl⟩ | ⟨ho, hr⟩
      · rfl
      · have h1 := hr f r (by simp at hf; omega)
        rw [ho.skipWs]
        obtain ⟨c, s, rfl, -, -, -, -, h93, -⟩ := ho
        rw [List.cons_append] at h1 ⊢
        split
        · rename_i heq; injection heq with a; exact absurd a h93
        · rw [h1]; rfl
  | .obj ms, t, hP, h => by
    obtain ⟨u, hu, rfl⟩ := h
    obtain ⟨js, hm, hr⟩ := members_reads hT hK ms u hP hu
    refine ⟨.obj js, ⟨js, hm, rfl⟩, ⟨123, u ++ [125], rfl, by decide⟩, fun fuel r hf hs => ?_⟩
    cases fuel with
    | zero => simp at hf
    | succ f =>
      have e : 123 :: (u ++ [125]) ++ r = 123 :: (u ++ 125 :: r) := by simp
      rw [e, readValue_obj]
      rcases hr with ⟨rfl, rfl⟩ | ⟨ho, hr⟩
      · rfl
      · have h1 := hr f r (by simp at hf; omega)
        rw [ho.skipWs]
        obtain ⟨c, s, rfl, -, -, -, -, -, h125⟩ := ho
        rw [List.cons_append] at h1 ⊢
        split
        · rename_i heq; injection heq with a; exact absurd a h125
        · rw [h1]; rfl

theorem docs_reads (hT : ∀ a t, P a → T a t → ∃ j, M a j ∧ ReadsAs t j)
    (hK : ∀ k t, K k t → t.head? = some 34 ∧ ∀ r, readString (t ++ r) = some (k, r)) :
    ∀ (es : Docs α) (t : Bytes), es.All P → es.Text T K t → ∃ js, es.Means M js ∧
      ((t = [] ∧ js = .nil) ∨ (Opens t ∧ ∀ fuel r, t.length + 1 ≤ fuel →
        readElems fuel (t ++ 93 :: r) = some (js, r)))
  | .nil, t, _, h => ⟨.nil, rfl, Or.inl ⟨h, rfl⟩⟩
  | .cons e es, t, hP, h => by
    obtain ⟨u, w, hu, hw, rfl⟩ := h
    obtain ⟨a, ha, ho, hr⟩ := doc_reads hT hK e u hP.1 hu
    obtain ⟨b, hb, hrest⟩ := docs_reads hT hK es w hP.2 hw
    refine ⟨.cons a b, ⟨a, b, ha, hb, rfl⟩, Or.inr ?_⟩
    cases es with
    | nil =>
      cases hb
      refine ⟨ho, fun fuel r hf => ?_⟩
      cases fuel with
      | zero => simp at hf
      | succ f =>
        rw [readElems, hr f _ (by simpa using hf) (stop_of (by simp) r)]
        rfl
    | cons e' es' =>
      rcases hrest with ⟨rfl, rfl⟩ | ⟨-, hrest⟩
      · obtain ⟨x, y, -, -, h⟩ := hb; cases h
      · dsimp only
        constructor
        · obtain ⟨c, s, rfl, hc⟩ := ho; exact ⟨c, _, rfl, hc⟩
        · intro fuel r hf
          cases fuel with
          | zero => simp at hf
          | succ f =>
            simp only [List.length_append, List.length_cons] at hf
            rw [List.append_assoc, List.cons_append, readElems, hr f _ (by omega) (stop_of (by simp) _)]
            show Option.map (fun p => (JElems.cons a p.1, p.2)) (readElems f (w ++ 93 :: r)) = _
            rw [hrest f r (by omega)]
            rfl

theorem members_reads (hT : ∀ a t, P a → T a t → ∃ j, M a j ∧ ReadsAs t j)
    (hK : ∀ k t, K k t → t.head? = some 34 ∧ ∀ r, readString (t ++ r) = some (k, r)) :
    ∀ (es : Members α) (t : Bytes), es.All P → es.Text T K t → ∃ js, es.Means M js ∧
      ((t = [] ∧ js = .nil) ∨ (Opens t ∧ ∀ fuel r, t.length + 1 ≤ fuel →
        readMembers fuel (t ++ 125 :: r) = some (js, r)))
  | .nil, t, _, h => ⟨.nil, rfl, Or.inl ⟨h, rfl⟩⟩
  | .cons k e es, t, hP, h => by
    obtain ⟨x, u, w, hx, hu, hw, rfl⟩ := h
    obtain ⟨a, ha, ho, hr⟩ := doc_reads hT hK e u hP.1 hu
    obtain ⟨b, hb, hrest⟩ := members_reads hT hK es w hP.2 hw
    obtain ⟨hx0, hx⟩ := hK k x hx
    obtain ⟨x', rfl⟩ : ∃ x', x = 34 :: x' := by
      cases x with
      | nil => simp at hx0
      | cons c x => exact ⟨x, by simpa using hx0⟩
    have hxo : Opens (34 :: x') := ⟨34, x', rfl, by decide⟩
    refine ⟨.cons k a b, ⟨a, b, ha, hb, rfl⟩, Or.inr ?_⟩
    cases es with
    | nil =>
      cases hb
      refine ⟨⟨34, _, rfl, by decide⟩, fun fuel r hf => ?_⟩
      cases fuel with
      | zero => simp at hf
      | succ f =>
        simp only [List.length_append, List.length_cons] at hf
        rw [List.append_assoc, readMembers, hxo.skipWs, hx]
        have h1 := hr f (125 :: r) (by omega) (stop_of (by simp) r)
        show (match readValue f (u ++ 125 :: r) with
          | none => none
          | some (v, r) =>
            match skipWs r with
            | 125 :: r => some (JMembers.cons k v .nil, r)
            | 44 :: r => (readMembers f r).map fun (p : JMembers × List UInt8) => (JMembers.cons k v p.1, p.2)
            | _ => none) = _
        rw [h1]
        rfl
    | cons k' e' es' =>
      rcases hrest with ⟨rfl, rfl⟩ | ⟨-, hrest⟩
      · obtain ⟨x, y, -, -, h⟩ := hb; cases h
      · dsimp only
        refine ⟨⟨34, _, rfl, by decide⟩, fun fuel r hf => ?_⟩
        cases fuel with
        | zero => simp at hf
        | succ f =>
          simp only [List.length_append, List.length_cons] at hf
          rw [List.append_assoc, readMembers, hxo.skipWs, hx]
          have h1 := hr f (44 :: (w ++ 125 :: r)) (by omega) (stop_of (by simp) _)
          rw [List.cons_append, List.append_assoc, List.cons_append]
          show (match readValue f (u ++ 44 :: (w ++ 125 :: r)) with
            | none => none
            | some (v, r) =>
              match skipWs r with
              | 125 :: r => some (JMembers.cons k v .nil, r)
              | 44 :: r => (readMembers f r).map fun (p : JMembers × List UInt8) => (JMembers.cons k v p.1, p.2)
              | _ => none) = _
          rw [h1]
          show Option.map (fun p => (JMembers.cons k a p.1, p.2)) (readMembers f (w ++ 125 :: r)) = _
          rw [hrest f r (by omega)]
          rfl
end

theorem readJson_reads {t : Bytes} {j : Json} (h : ReadsAs t j) : readJson t = some j := by
  have := h.2 (t.length + 1) [] (by omega) (by intro c hc; simp at hc)
  rw [List.append_nil] at this
  rw [readJson, this]
  rfl

mutual
theorem doc_all_and {E : α → Prop} : ∀ (d : Doc α), d.All E → d.All P → d.All fun a => E a ∧ P a
  | .leaf _, h, h' => ⟨h, h'⟩
  | .arr es, h, h' => docs_all_and es h h'
  | .obj ms, h, h' => members_all_and ms h h'

theorem docs_all_and {E : α → Prop} : ∀ (d : Docs α), d.All E → d.All P → d.All fun a => E a ∧ P a
  | .nil, _, _ => trivial
  | .cons e es, h, h' => ⟨doc_all_and e h.1 h'.1, docs_all_and es h.2 h'.2⟩

theorem members_all_and {E : α → Prop} : ∀ (d : Members α), d.All E → d.All P → d.All fun a => E a ∧ P a
  | .nil, _, _ => trivial
  | .cons _ e es, h, h' => ⟨doc_all_and e h.1 h'.1, members_all_and es h.2 h'.2⟩
end

/-- More fuel changes no result. -/
theorem read_mono (f : Nat) :
    (∀ s p, readValue f s = some p → readValue (f + 1) s = some p) ∧
    (∀ s p, readElems f s = some p → readElems (f + 1) s = some p) ∧
    (∀ s p, readMembers f s = some p → readMembers (f + 1) s = some p) := by
  induction f with
  | zero => exact ⟨fun s p h => by simp [readValue] at h, fun s p h => by simp [readElems] at h,
      fun s p h => by simp [readMembers] at h⟩
  | succ f ih =>
    obtain ⟨ihv, ihe, ihm⟩ := ih
    refine ⟨fun s p h => ?_, fun s p h => ?_, fun s p h => ?_⟩
    · rw [readValue] at h ⊢
      split at h
      · exact h
      · split at h
        · exact h
        · rw [Option.map_eq_some_iff] at h
          obtain ⟨a, h1, h2⟩ := h
          rw [ihe _ _ h1, Option.map_some, h2]
      · split at h
        · exact h
        · rw [Option.map_eq_some_iff] at h
          obtain ⟨a, h1, h2⟩ := h
          rw [ihm _ _ h1, Option.map_some, h2]
      · split <;> simp_all
    · rw [readElems] at h ⊢
      cases hv : readValue f s with
      | none => rw [hv] at h; simp at h
      | some q =>
        rw [hv] at h
        rw [ihv _ _ hv]
        dsimp only at h ⊢
        split at h
        · exact h
        · rw [Option.map_eq_some_iff] at h
          obtain ⟨a, h1, h2⟩ := h
          rw [ihe _ _ h1, Option.map_some, h2]
        · simp at h
    · rw [readMembers] at h ⊢
      cases hs : readString (skipWs s) with
      | none => rw [hs] at h; simp at h
      | some k =>
        rw [hs] at h
        dsimp only at h ⊢
        split at h
        · cases hv : readValue f _ with
          | none => rw [hv] at h; simp at h
          | some q =>
            rw [hv] at h
            rw [ihv _ _ hv]
            dsimp only at h ⊢
            split at h
            · exact h
            · rw [Option.map_eq_some_iff] at h
              obtain ⟨a, h1, h2⟩ := h
              rw [ihm _ _ h1, Option.map_some, h2]
            · simp at h
        · simp at h

theorem readValue_mono {f : Nat} (g : Nat) (hg : f ≤ g) {s : Bytes} {p : Json × List UInt8}
    (h : readValue f s = some p) : readValue g s = some p := by
  induction g with
  | zero => obtain rfl : f = 0 := by omega
            exact h
  | succ g ih =>
    by_cases hf : f = g + 1
    · exact hf ▸ h
    · exact (read_mono g).1 _ _ (ih (by omega))

/-- A text that starts no value, whatever follows. -/
def Fails (t : Bytes) : Prop := Opens t ∧ ∀ fuel r, readValue fuel (t ++ r) = none

mutual
theorem doc_fails {E : α → Prop} (hT : ∀ a t, E a → P a → T a t → ∃ j, M a j ∧ ReadsAs t j)
    (hF : ∀ a t, E a → ¬ P a → T a t → Fails t)
    (hK : ∀ k t, K k t → t.head? = some 34 ∧ ∀ r, readString (t ++ r) = some (k, r)) :
    ∀ (d : Doc α) (t : Bytes), d.All E → ¬ d.All P → d.Text T K t → Fails t
  | .leaf a, t, hE, hP, h => hF a t hE hP h
  | .arr es, t, hE, hP, h => by
    obtain ⟨u, hu, rfl⟩ := h
    obtain ⟨ho, hr⟩ := docs_fails hT hF hK es u hE hP hu
    refine ⟨⟨91, u ++ [93], rfl, by decide⟩, fun fuel r => ?_⟩
    cases fuel with
    | zero => rfl
    | succ f =>
      have e : 91 :: (u ++ [93]) ++ r = 91 :: (u ++ 93 :: r) := by simp
      rw [e, readValue_arr]
      have h1 := hr f (93 :: r)
      rw [ho.skipWs]
      obtain ⟨c, s, rfl, -, -, -, -, h93, -⟩ := ho
      rw [List.cons_append] at h1 ⊢
      split
      · rename_i heq; injection heq with a; exact absurd a h93
      · rw [h1]; rfl
  | .obj ms, t, hE, hP, h => by
    obtain ⟨u, hu, rfl⟩ := h
    obtain ⟨ho, hr⟩ := members_fails hT hF hK ms u hE hP hu
    refine ⟨⟨123, u ++ [125], rfl, by decide⟩, fun fuel r => ?_⟩
    cases fuel with
    | zero => rfl
    | succ f =>
      have e : 123 :: (u ++ [125]) ++ r = 123 :: (u ++ 125 :: r) := by simp
      rw [e, readValue_obj]
      have h1 := hr f (125 :: r)
      rw [ho.skipWs]
      obtain ⟨c, s, rfl, -, -, -, -, -, h125⟩ := ho
      rw [List.cons_append] at h1 ⊢
      split
      · rename_i heq; injection heq with a; exact absurd a h125
      · rw [h1]; rfl

theorem docs_fails {E : α → Prop} (hT : ∀ a t, E a → P a → T a t → ∃ j, M a j ∧ ReadsAs t j)
    (hF : ∀ a t, E a → ¬ P a → T a t → Fails t)
    (hK : ∀ k t, K k t → t.head? = some 34 ∧ ∀ r, readString (t ++ r) = some (k, r)) :
    ∀ (es : Docs α) (t : Bytes), es.All E → ¬ es.All P → es.Text T K t →
      Opens t ∧ ∀ fuel r, readElems fuel (t ++ r) = none
  | .nil, _, _, hP, _ => absurd trivial hP
  | .cons e es, t, hE, hP, h => by
    obtain ⟨u, w, hu, hw, rfl⟩ := h
    by_cases he : e.All P
    · have hes : ¬ es.All P := fun h => hP ⟨he, h⟩
      obtain ⟨a, -, ho, hr⟩ := doc_reads (P := fun a => E a ∧ P a) (fun a t h => hT a t h.1 h.2) hK e u
        (doc_all_and e hE.1 he) hu
      obtain ⟨-, hrest⟩ := docs_fails hT hF hK es w hE.2 hes hw
      cases es with
      | nil => exact absurd trivial hes
      | cons e' es' =>
        dsimp only
        constructor
        · obtain ⟨c, s, rfl, hc⟩ := ho; exact ⟨c, _, rfl, hc⟩
        · intro fuel r
          cases fuel with
          | zero => rfl
          | succ f =>
            rw [List.append_assoc, List.cons_append, readElems]
            cases hv : readValue f (u ++ 44 :: (w ++ r)) with
            | none => rfl
            | some p =>
              have h2 := readValue_mono (f + u.length) (by omega) hv
              rw [hr _ _ (by omega) (stop_of (by simp) _)] at h2
              injection h2 with h2
              rw [← h2]
              show Option.map (fun p => (JElems.cons a p.1, p.2)) (readElems f (w ++ r)) = _
              rw [hrest]; rfl
    · obtain ⟨ho, hr⟩ := doc_fails hT hF hK e u hE.1 he hu
      cases es with
      | nil =>
        refine ⟨ho, fun fuel r => ?_⟩
        cases fuel with
        | zero => rfl
        | succ f => dsimp only; rw [readElems, hr]
      | cons e' es' =>
        dsimp only
        constructor
        · obtain ⟨c, s, rfl, hc⟩ := ho; exact ⟨c, _, rfl, hc⟩
        · intro fuel r
          cases fuel with
          | zero => rfl
          | succ f => rw [List.append_assoc, readElems, hr]

theorem members_fails {E : α → Prop} (hT : ∀ a t, E a → P a → T a t → ∃ j, M a j ∧ ReadsAs t j)
    (hF : ∀ a t, E a → ¬ P a → T a t → Fails t)
    (hK : ∀ k t, K k t → t.head? = some 34 ∧ ∀ r, readString (t ++ r) = some (k, r)) :
    ∀ (es : Members α) (t : Bytes), es.All E → ¬ es.All P → es.Text T K t →
      Opens t ∧ ∀ fuel r, readMembers fuel (t ++ r) = none
  | .nil, _, _, hP, _ => absurd trivial hP
  | .cons k e es, t, hE, hP, h => by
    obtain ⟨x, u, w, hx, hu, hw, rfl⟩ := h
    obtain ⟨hx0, hx⟩ := hK k x hx
    obtain ⟨x', rfl⟩ : ∃ x', x = 34 :: x' := by
      cases x with
      | nil => simp at hx0
      | cons c x => exact ⟨x, by simpa using hx0⟩
    have hxo : Opens (34 :: x') := ⟨34, x', rfl, by decide⟩
    have step : ∀ (f : Nat) (s : Bytes), readMembers (f + 1) (34 :: (x' ++ 58 :: s)) =
        match readValue f s with
        | none => none
        | some (v, r) =>
          match skipWs r with
          | 125 :: r => some (JMembers.cons k v .nil, r)
          | 44 :: r => (readMembers f r).map fun (p : JMembers × List UInt8) => (JMembers.cons k v p.1, p.2)
          | _ => none := by
      intro f s
      rw [← List.cons_append, readMembers, hxo.skipWs, hx]
      rfl
    by_cases he : e.All P
    · have hes : ¬ es.All P := fun h => hP ⟨he, h⟩
      obtain ⟨a, -, ho, hr⟩ := doc_reads (P := fun a => E a ∧ P a) (fun a t h => hT a t h.1 h.2) hK e u
        (doc_all_and e hE.1 he) hu
      obtain ⟨-, hrest⟩ := members_fails hT hF hK es w hE.2 hes hw
      cases es with
      | nil => exact absurd trivial hes
      | cons k' e' es' =>
        dsimp only
        refine ⟨⟨34, _, rfl, by decide⟩, fun fuel r => ?_⟩
        cases fuel with
        | zero => rfl
        | succ f =>
          rw [List.append_assoc, List.cons_append, List.cons_append, List.append_assoc, List.cons_append, step]
          cases hv : readValue f (u ++ 44 :: (w ++ r)) with
          | none => rfl
          | some p =>
            have h2 := readValue_mono (f + u.length) (by omega) hv
            rw [hr _ _ (by omega) (stop_of (by simp) _)] at h2
            injection h2 with h2
            rw [← h2]
            show Option.map (fun p => (JMembers.cons k a p.1, p.2)) (readMembers f (w ++ r)) = _
            rw [hrest]; rfl
    · obtain ⟨ho, hr⟩ := doc_fails hT hF hK e u hE.1 he hu
      cases es with
      | nil =>
        refine ⟨⟨34, _, rfl, by decide⟩, fun fuel r => ?_⟩
        cases fuel with
        | zero => rfl
        | succ f => dsimp only; rw [List.append_assoc, List.cons_append, List.cons_append, step, hr]
      | cons k' e' es' =>
        dsimp only
        refine ⟨⟨34, _, rfl, by decide⟩, fun fuel r => ?_⟩
        cases fuel with
        | zero => rfl
        | succ f => rw [List.append_assoc, List.cons_append, List.cons_append, List.append_assoc, step, hr]
end

theorem readJson_fails {t : Bytes} (h : Fails t) : readJson t = none := by
  have := h.2 (t.length + 1) []
  rw [List.append_nil] at this
  rw [readJson, this]

mutual
theorem doc_text (hT : ∀ a, P a → ∃ t, T a t) (hK : ∀ k, ∃ t, K k t) :
    ∀ (d : Doc α), d.All P → ∃ t, d.Text T K t
  | .leaf a, h => hT a h
  | .arr es, h => let ⟨t, ht⟩ := docs_text hT hK es h; ⟨_, t, ht, rfl⟩
  | .obj ms, h => let ⟨t, ht⟩ := members_text hT hK ms h; ⟨_, t, ht, rfl⟩

theorem docs_text (hT : ∀ a, P a → ∃ t, T a t) (hK : ∀ k, ∃ t, K k t) :
    ∀ (es : Docs α), es.All P → ∃ t, es.Text T K t
  | .nil, _ => ⟨[], rfl⟩
  | .cons e es, h =>
    let ⟨u, hu⟩ := doc_text hT hK e h.1
    let ⟨w, hw⟩ := docs_text hT hK es h.2
    ⟨_, u, w, hu, hw, rfl⟩

theorem members_text (hT : ∀ a, P a → ∃ t, T a t) (hK : ∀ k, ∃ t, K k t) :
    ∀ (es : Members α), es.All P → ∃ t, es.Text T K t
  | .nil, _ => ⟨[], rfl⟩
  | .cons k e es, h =>
    let ⟨x, hx⟩ := hK k
    let ⟨u, hu⟩ := doc_text hT hK e h.1
    let ⟨w, hw⟩ := members_text hT hK es h.2
    ⟨_, x, u, w, hx, hu, hw, rfl⟩
end
end

end Lexi
