import Verif.Proofs.Str
import Verif.Spec.Utf8
import Verif.Props.Scalar

/-!
# UTF-8 is preserved: C68
-/

namespace Lexi
open Spec

/-- The grammar encodes exactly the scalar values (no surrogates, up to U+10FFFF), by the encoder the JSON reader uses. -/
theorem utf8Char_iff (bs : Bytes) (n : Nat) :
    Utf8Char bs n ↔ (n < 0xD800 ∨ 0xE000 ≤ n ∧ n < 0x110000) ∧ bs = utf8 n := by
  constructor
  · intro h
    cases h with
    | @one a h =>
      refine ⟨by omega, ?_⟩
      unfold utf8; rw [if_pos (by omega)]; simp
    | @two a b h1 h2 h3 =>
      unfold Tail at h3
      refine ⟨by omega, ?_⟩
      unfold utf8
      rw [if_neg (by omega), if_pos (by omega)]
      rw [show 0xC0 + ((a.toNat - 0xC0) * 64 + (b.toNat - 0x80)) / 64 = a.toNat by omega,
        show 0x80 + ((a.toNat - 0xC0) * 64 + (b.toNat - 0x80)) % 64 = b.toNat by omega]
      simp
    | @three a b c h1 h2 h3 h4 h5 h6 =>
      unfold Tail at h3 h4
      have hn : ∃ n, n = ((a.toNat - 0xE0) * 64 + (b.toNat - 0x80)) * 64 + (c.toNat - 0x80) := ⟨_, rfl⟩
      obtain ⟨n, hn⟩ := hn
      rw [← hn]
      refine ⟨by omega, ?_⟩
      unfold utf8
      rw [if_neg (by omega), if_neg (by omega), if_pos (by omega)]
      rw [show 0xE0 + n / 4096 = a.toNat by omega, show 0x80 + n / 64 % 64 = b.toNat by omega,
        show 0x80 + n % 64 = c.toNat by omega]
      simp
    | @four a b c d h1 h2 h3 h4 h5 h6 h7 =>
      unfold Tail at h3 h4 h5
      have hn : ∃ n, n = (((a.toNat - 0xF0) * 64 + (b.toNat - 0x80)) * 64 + (c.toNat - 0x80)) * 64 + (d.toNat - 0x80) :=
        ⟨_, rfl⟩
      obtain ⟨n, hn⟩ := hn
      rw [← hn]
      refine ⟨by omega, ?_⟩
      unfold utf8
      rw [if_neg (by omega), if_neg (by omega), if_neg (by omega)]
      rw [show 0xF0 + n / 262144 = a.toNat by omega, show 0x80 + n / 4096 % 64 = b.toNat by omega,
        show 0x80 + n / 64 % 64 = c.toNat by omega, show 0x80 + n % 64 = d.toNat by omega]
      simp
  · rintro ⟨hn, rfl⟩
    have mod : ∀ k : Nat, k < 256 → (UInt8.ofNat k).toNat = k := fun k hk => by simp; omega
    unfold utf8
    split
    · have := Utf8Char.one (a := UInt8.ofNat n) (by rw [mod n (by omega)]; omega)
      rwa [mod n (by omega)] at this
    split
    · have := Utf8Char.two (a := UInt8.ofNat (0xC0 + n / 64)) (b := UInt8.ofNat (0x80 + n % 64))
        (by rw [mod _ (by omega)]; omega) (by rw [mod _ (by omega)]; omega)
        (by unfold Tail; rw [mod _ (by omega)]; omega)
      rw [mod _ (by omega), mod _ (by omega)] at this
      rwa [show (0xC0 + n / 64 - 0xC0) * 64 + (0x80 + n % 64 - 0x80) = n by omega] at this
    split
    · have := Utf8Char.three (a := UInt8.ofNat (0xE0 + n / 4096)) (b := UInt8.ofNat (0x80 + n / 64 % 64))
        (c := UInt8.ofNat (0x80 + n % 64))
        (by rw [mod _ (by omega)]; omega) (by rw [mod _ (by omega)]; omega)
        (by unfold Tail; rw [mod _ (by omega)]; omega) (by unfold Tail; rw [mod _ (by omega)]; omega)
        (by rw [mod _ (by omega), mod _ (by omega)]; omega) (by rw [mod _ (by omega), mod _ (by omega)]; omega)
      rw [mod _ (by omega), mod _ (by omega), mod _ (by omega)] at this
      rwa [show ((0xE0 + n / 4096 - 0xE0) * 64 + (0x80 + n / 64 % 64 - 0x80)) * 64 + (0x80 + n % 64 - 0x80) = n by omega]
        at this
    · have := Utf8Char.four (a := UInt8.ofNat (0xF0 + n / 262144)) (b := UInt8.ofNat (0x80 + n / 4096 % 64))
        (c := UInt8.ofNat (0x80 + n / 64 % 64)) (d := UInt8.ofNat (0x80 + n % 64))
        (by rw [mod _ (by omega)]; omega) (by rw [mod _ (by omega)]; omega)
        (by unfold Tail; rw [mod _ (by omega)]; omega) (by unfold Tail; rw [mod _ (by omega)]; omega)
        (by unfold Tail; rw [mod _ (by omega)]; omega)
        (by rw [mod _ (by omega), mod _ (by omega)]; omega) (by rw [mod _ (by omega), mod _ (by omega)]; omega)
      rw [mod _ (by omega), mod _ (by omega), mod _ (by omega), mod _ (by omega)] at this
      rwa [show (((0xF0 + n / 262144 - 0xF0) * 64 + (0x80 + n / 4096 % 64 - 0x80)) * 64 + (0x80 + n / 64 % 64 - 0x80)) * 64 +
        (0x80 + n % 64 - 0x80) = n by omega] at this

/-! ## Byte maps that touch only ASCII -/

/-- ASCII bytes go to non-empty ASCII texts, other bytes stay. -/
structure AsciiMap (f : UInt8 → Bytes) : Prop where
  ascii : ∀ b, b.toNat < 128 → f b ≠ [] ∧ ∀ x ∈ f b, x.toNat < 128
  high : ∀ b, 128 ≤ b.toNat → f b = [b]

theorem utf8_ascii {l : Bytes} (h : ∀ x ∈ l, x.toNat < 128) {t : Bytes} {ns : List Nat} (ht : Utf8 t ns) :
    Utf8 (l ++ t) (l.map UInt8.toNat ++ ns) := by
  induction l with
  | nil => exact ht
  | cons a l ih =>
    have := Utf8.cons (Utf8Char.one (a := a) (by have := h a (by simp); omega)) (ih (fun x hx => h x (by simp [hx])))
    simpa using this

theorem utf8_ascii_inv {l : Bytes} (h : ∀ x ∈ l, x.toNat < 128) {t : Bytes} (ht : ValidUtf8 (l ++ t)) : ValidUtf8 t := by
  induction l with
  | nil => exact ht
  | cons a l ih =>
    apply ih (fun x hx => h x (by simp [hx]))
    obtain ⟨cs, hc⟩ := ht
    generalize hu : a :: l ++ t = u at hc
    have ha := h a (by simp)
    cases hc with
    | nil => cases hu
    | cons h1 h2 =>
      cases h1 with
      | one _ =>
        injection hu with _ e
        have e : l ++ t = _ := e
        rw [e]; exact ⟨_, h2⟩
      | two h _ _ => injection hu with e _; subst e; omega
      | three h _ _ _ _ _ => injection hu with e _; subst e; omega
      | four h _ _ _ _ _ _ => injection hu with e _; subst e; omega

/-- What the code points become. -/
def AsciiMap.code (f : UInt8 → Bytes) (c : Nat) : List Nat :=
  if c < 128 then (f (UInt8.ofNat c)).map UInt8.toNat else [c]

theorem AsciiMap.utf8 {f : UInt8 → Bytes} (hf : AsciiMap f) {s : Bytes} {cs : List Nat} (h : Utf8 s cs) :
    Utf8 (s.flatMap f) (cs.flatMap (AsciiMap.code f)) := by
  induction h with
  | nil => exact .nil
  | @cons c t n ns hc _ ih =>
    rw [List.flatMap_append, List.flatMap_cons]
    have tail : ∀ b, Tail b → f b = [b] := fun b hb => hf.high b (by unfold Tail at hb; omega)
    have keep : c.flatMap f = c → 128 ≤ n → Utf8 (c.flatMap f ++ t.flatMap f) (AsciiMap.code f n ++ ns.flatMap (AsciiMap.code f)) := by
      intro e hn
      rw [e, AsciiMap.code, if_neg (by omega)]
      exact .cons hc ih
    have hc' := (utf8Char_iff c n).mp hc
    cases hc with
    | @one a h =>
      have ha := hf.ascii a (by omega)
      rw [AsciiMap.code, if_pos (by omega)]
      simp only [List.flatMap_cons, List.flatMap_nil, List.append_nil, UInt8.ofNat_toNat]
      exact utf8_ascii ha.2 ih
    | @two a b h1 h2 h3 =>
      refine keep ?_ (by unfold Tail at h3; omega)
      simp [hf.high a (by omega), tail b h3]
    | @three a b c h1 h2 h3 h4 h5 h6 =>
      refine keep ?_ (by unfold Tail at h3 h4; omega)
      simp [hf.high a (by omega), tail b h3, tail c h4]
    | @four a b c d h1 h2 h3 h4 h5 h6 h7 =>
      refine keep ?_ (by unfold Tail at h3 h4 h5; omega)
      simp [hf.high a (by omega), tail b h3, tail c h4, tail d h5]

/-- A non-ASCII byte at the head of the image comes from the same byte at the head of the source. -/
theorem AsciiMap.head {f : UInt8 → Bytes} (hf : AsciiMap f) {s : Bytes} {b : UInt8} {r : Bytes} (hb : 128 ≤ b.toNat)
    (h : s.flatMap f = b :: r) : ∃ s', s = b :: s' ∧ r = s'.flatMap f := by
  cases s with
  | nil => cases h
  | cons a s =>
    rw [List.flatMap_cons] at h
    by_cases ha : a.toNat < 128
    · obtain ⟨h1, h2⟩ := hf.ascii a ha
      cases hfa : f a with
      | nil => exact absurd hfa h1
      | cons x l =>
        rw [hfa] at h h2
        injection h with e _
        have := h2 x (by simp)
        subst e; omega
    · rw [hf.high a (by omega)] at h
      injection h with e1 e2
      subst e1
      exact ⟨s, rfl, e2.symm⟩

theorem AsciiMap.valid {f : UInt8 → Bytes} (hf : AsciiMap f) (s : Bytes) : ValidUtf8 (s.flatMap f) ↔ ValidUtf8 s := by
  constructor
  · generalize hn : s.length = n
    induction n using Nat.strongRecOn generalizing s with
    | _ n ih =>
    intro h
    cases s with
    | nil => exact ⟨_, .nil⟩
    | cons a s =>
      rw [List.length_cons] at hn
      rw [List.flatMap_cons] at h
      by_cases ha : a.toNat < 128
      · obtain ⟨cs, hc⟩ := ih s.length (by omega) s rfl (utf8_ascii_inv (hf.ascii a ha).2 h)
        exact ⟨_, Utf8.cons (Utf8Char.one (a := a) (by omega)) hc⟩
      · rw [hf.high a (by omega)] at h
        obtain ⟨cs, hc⟩ := h
        generalize hu : [a] ++ s.flatMap f = u at hc
        cases hc with
        | nil => cases hu
        | @cons c t n' ns h1 h2 =>
          cases h1 with
          | one h => injection hu with e _; subst e; omega
          | @two a' b h1 h3 hb =>
            injection hu with e1 e2
            subst e1
            obtain ⟨s1, rfl, r1⟩ := hf.head (b := b) (by unfold Tail at hb; omega) e2
            obtain ⟨cs, hc⟩ := ih s1.length (by simp at hn; omega) s1 rfl ⟨ns, (show t = _ from r1) ▸ h2⟩
            exact ⟨_, Utf8.cons (Utf8Char.two h1 h3 hb) hc⟩
          | @three a' b c h1 h3 hb hc0 g1 g2 =>
            injection hu with e1 e2
            subst e1
            obtain ⟨s1, rfl, r1⟩ := hf.head (b := b) (by unfold Tail at hb; omega) e2
            obtain ⟨s2, rfl, r2⟩ := hf.head (b := c) (by unfold Tail at hc0; omega) r1.symm
            obtain ⟨cs, hc⟩ := ih s2.length (by simp at hn; omega) s2 rfl ⟨ns, (show t = _ from r2) ▸ h2⟩
            exact ⟨_, Utf8.cons (Utf8Char.three h1 h3 hb hc0 g1 g2) hc⟩
          | @four a' b c d h1 h3 hb hc0 hd g1 g2 =>
            injection hu with e1 e2
            subst e1
            obtain ⟨s1, rfl, r1⟩ := hf.head (b := b) (by unfold Tail at hb; omega) e2
            obtain ⟨s2, rfl, r2⟩ := hf.head (b := c) (by unfold Tail at hc0; omega) r1.symm
            obtain ⟨s3, rfl, r3⟩ := hf.head (b := d) (by unfold Tail at hd; omega) r2.symm
            obtain ⟨cs, hc⟩ := ih s3.length (by simp at hn; omega) s3 rfl ⟨ns, (show t = _ from r3) ▸ h2⟩
            exact ⟨_, Utf8.cons (Utf8Char.four h1 h3 hb hc0 hd g1 g2) hc⟩
  · rintro ⟨cs, h⟩
    exact ⟨_, hf.utf8 h⟩

theorem escB_map : AsciiMap escB where
  ascii := by refine forall_byte ?_; decide +kernel
  high := by refine forall_byte ?_; decide +kernel

theorem jsonB_map : AsciiMap jsonB where
  ascii := by refine forall_byte ?_; decide +kernel
  high := by refine forall_byte ?_; decide +kernel

theorem code_eq {f : UInt8 → Bytes} {g : Nat → List Nat} (h : ∀ c : Fin 128, AsciiMap.code f c = g c)
    (h' : ∀ c, 128 ≤ c → g c = [c]) : AsciiMap.code f = g := by
  funext c
  by_cases hc : c < 128
  · exact h ⟨c, hc⟩
  · rw [h' c (by omega), AsciiMap.code, if_neg hc]

theorem escB_code : AsciiMap.code escB = escapeCode := by
  refine code_eq (by decide +kernel) ?_
  intro c hc
  rw [escapeCode, if_neg (by omega)]

theorem jsonB_code : AsciiMap.code jsonB = jsonCode := by
  refine code_eq (by decide +kernel) ?_
  intro c hc
  have e1 : '"'.toNat = 34 := rfl
  have e2 : '\\'.toNat = 92 := rfl
  rw [jsonCode, e1, e2, if_neg (by omega), if_neg (by omega), if_neg (by omega), if_neg (by omega), if_neg (by omega),
    if_neg (by omega), if_neg (by omega)]

theorem utf8_snoc {v : Bytes} {cs : List Nat} (h : Utf8 v cs) : Utf8 (v ++ [34]) (cs ++ [34]) := by
  induction h with
  | nil => exact Utf8.cons (c := [34]) (t := []) (.one (a := 34) (by decide)) .nil
  | cons hc _ ih => rw [List.append_assoc]; exact .cons hc ih

/-- A closing quote belongs to no longer character. -/
theorem utf8_snoc_inv {v : Bytes} (h : ValidUtf8 (v ++ [34])) : ValidUtf8 v := by
  obtain ⟨cs, hc⟩ := h
  generalize hw : v ++ [34] = w at hc
  induction hc generalizing v with
  | nil => simp at hw
  | @cons c t n ns h1 h2 ih =>
    have ne : c ≠ [] := by cases h1 <;> simp
    by_cases ht : t = []
    · subst ht
      rw [List.append_nil] at hw
      have hl : c.getLast ne = 34 := by
        have : c.getLast? = some 34 := by rw [← hw]; simp
        rw [List.getLast?_eq_some_getLast ne] at this
        exact Option.some.inj this
      have hc1 : c = [34] := by
        cases h1 with
        | one _ => simp at hl; rw [hl]
        | two _ _ hb => simp at hl; subst hl; exact absurd hb (by decide)
        | three _ _ _ hb _ _ => simp at hl; subst hl; exact absurd hb (by decide)
        | four _ _ _ _ hb _ _ => simp at hl; subst hl; exact absurd hb (by decide)
      rw [hc1] at hw
      have : v = [] := by simpa using hw
      rw [this]
      exact ⟨_, .nil⟩
    · obtain ⟨u, x, hu⟩ : ∃ u x, t = u ++ [x] := ⟨t.dropLast, t.getLast ht, (List.dropLast_concat_getLast ht).symm⟩
      rw [hu, ← List.append_assoc] at hw
      obtain ⟨hv, hx⟩ := List.append_inj' hw rfl
      injection hx with hx _
      obtain ⟨cs', hcs⟩ := ih (v := u) (by rw [hu, hx])
      rw [hv]
      exact ⟨_, .cons h1 hcs⟩

/-- C68.  `escape` turns UTF-8 into UTF-8, code point by code point, and nothing else into UTF-8. -/
theorem C68_escape (sgn : Bool) (s : Bytes) :
    (∀ cs, Utf8 s cs → Utf8 (escapeStr sgn s) (cs.flatMap escapeCode)) ∧
    (ValidUtf8 (escapeStr sgn s) ↔ ValidUtf8 s) := by
  rw [escapeStr, escape_eq, ← escB_code]
  exact ⟨fun cs h => escB_map.utf8 h, escB_map.valid s⟩

/-- C68.  `jsonify` turns UTF-8 into UTF-8, code point by code point, and nothing else into UTF-8. -/
theorem C68_jsonify (sgn : Bool) (s : Bytes) :
    ∃ t, jsonifyStr sgn s = .ok t ∧
      (∀ cs, Utf8 s cs → Utf8 t (34 :: cs.flatMap jsonCode ++ [34])) ∧ (ValidUtf8 t ↔ ValidUtf8 s) := by
  have key : ∀ cs, Utf8 s cs → Utf8 (34 :: (s.flatMap jsonB ++ [34])) (34 :: cs.flatMap jsonCode ++ [34]) := by
    intro cs h
    have h1 := utf8_snoc (jsonB_map.utf8 h)
    rw [jsonB_code] at h1
    exact .cons (.one (a := 34) (by decide)) h1
  refine ⟨_, jsonifyStr_eq sgn s, key, fun h => ?_, fun ⟨cs, h⟩ => ⟨_, key cs h⟩⟩
  exact (jsonB_map.valid s).mp (utf8_snoc_inv (utf8_ascii_inv (l := [34]) (by decide) h))

theorem valid_single (c : UInt8) : ValidUtf8 [c] ↔ c.toNat < 128 := by
  constructor
  · rintro ⟨cs, h⟩
    generalize hw : [c] = w at h
    cases h with
    | nil => cases hw
    | cons h1 h2 =>
      cases h1 with
      | one h => injection hw with e _; subst e; omega
      | two => simp at hw
      | three => simp at hw
      | four => simp at hw
  · intro h
    exact ⟨_, Utf8.cons (Utf8Char.one (a := c) (by omega)) .nil⟩

/-- C68.  A single `char` from 0x80 up is never UTF-8, whether formatted, escaped or as JSON. -/
theorem C68_char (sgn : Bool) (junk : Bytes) (hj : junk.length = CHAR_SIZE) (c : UInt8) :
    (∃ t, stringChar junk c = .ok t ∧ (ValidUtf8 t ↔ c.toNat < 128)) ∧
    (∃ t, (formatChar junk c >>= CharObj.escape sgn) = .ok t ∧ (ValidUtf8 t ↔ c.toNat < 128)) ∧
    (∃ t, (formatChar junk c >>= CharObj.jsonify sgn) = .ok t ∧ (ValidUtf8 t ↔ c.toNat < 128)) := by
  obtain ⟨h1, h2⟩ := C48_char_as_string sgn junk hj c
  refine ⟨⟨[c], (C12_char junk hj c).1, valid_single c⟩, ⟨_, h1, ?_⟩, ?_⟩
  · rw [(C68_escape sgn [c]).2, valid_single]
  · obtain ⟨t, e, -, ht⟩ := C68_jsonify sgn [c]
    exact ⟨t, h2.trans e, ht.trans (valid_single c)⟩

/-! ### Inhabited hypotheses -/

/-- "é€😀" in UTF-8, and its escaped JSON form with a quote. -/
example : Utf8 [0xC3, 0xA9, 0xE2, 0x82, 0xAC, 0xF0, 0x9F, 0x98, 0x80] [0xE9, 0x20AC, 0x1F600] :=
  .cons (.two (by decide) (by decide) (by decide))
    (.cons (.three (by decide) (by decide) (by decide) (by decide) (by decide) (by decide))
      (.cons (.four (by decide) (by decide) (by decide) (by decide) (by decide) (by decide) (by decide)) .nil))
example : jsonifyStr true [0xC3, 0xA9, 34, 1] = .ok (34 :: [0xC3, 0xA9, 92, 34] ++ ascii "\\u0001" ++ [34]) := by
  decide +kernel
example : ¬ ValidUtf8 [0xE9] := fun h => absurd ((valid_single 0xE9).mp h) (by decide)

end Lexi
