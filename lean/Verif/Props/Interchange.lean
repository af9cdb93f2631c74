import Verif.Spec.Interchange
import Verif.Props.Shell
import Verif.Props.RoundTrip

/-!
# Texts in CSV records and query strings: C117
-/

namespace Lexi
open Spec Soft Dtoa

/-- How often `b` occurs in all of the fields. -/
def countAll (b : UInt8) (fs : List Bytes) : ℕ := (fs.map (List.count b)).sum

theorem countAll_cons (b : UInt8) (f : Bytes) (fs : List Bytes) :
    countAll b (f :: fs) = f.count b + countAll b fs := by simp [countAll]

theorem record_two (d : UInt8) (f g : Bytes) (gs : List Bytes) :
    record d (f :: g :: gs) = f ++ d :: record d (g :: gs) := by
  rw [record]; simp

theorem count_record (b d : UInt8) (h : b ≠ d) (fs : List Bytes) : (record d fs).count b = countAll b fs := by
  induction fs with
  | nil => rfl
  | cons f fs ih =>
    cases fs with
    | nil => simp [record, countAll]
    | cons g gs =>
      rw [record_two, List.count_append, List.count_cons_of_ne (Ne.symm h), ih, countAll_cons b f]

/-- Reading a record keeps every byte that is neither a quote nor a comma. -/
theorem csv_count (b : UInt8) (h34 : b ≠ 34) (h44 : b ≠ 44) (t : Bytes) :
    ∀ st cur fs, csvRest st cur t = some fs → countAll b fs = cur.count b + t.count b := by
  induction t with
  | nil =>
    intro st cur fs h
    cases st <;> simp [csvRest] at h <;> subst h <;> simp [countAll]
  | cons c t ih =>
    have app : ∀ cur : Bytes, (cur ++ [c]).count b + t.count b = cur.count b + (c :: t).count b := fun cur => by
      rw [List.count_append, List.count_cons, List.count_cons, List.count_nil]; omega
    have skip : c = 34 ∨ c = 44 → (c :: t).count b = t.count b := by
      rintro (rfl | rfl)
      · exact List.count_cons_of_ne (Ne.symm h34)
      · exact List.count_cons_of_ne (Ne.symm h44)
    have next : ∀ (cur : Bytes) fs, c = 44 → (csvRest .start [] t).map (cur :: ·) = some fs →
        countAll b fs = cur.count b + (c :: t).count b := by
      intro cur fs hc h
      obtain ⟨gs, h1, rfl⟩ := Option.map_eq_some_iff.mp h
      rw [countAll_cons, ih _ _ _ h1, skip (.inr hc), List.count_nil, Nat.zero_add]
    intro st cur fs h
    cases st <;> simp only [csvRest] at h
    · split_ifs at h with h1 h2 h3
      · rw [ih _ _ _ h, skip (.inl h1)]
      · exact next _ _ h2 h
      · rw [ih _ _ _ h, app]
    · split_ifs at h with h1 h2 h3
      · exact next _ _ h2 h
      · rw [ih _ _ _ h, app]
    · split_ifs at h with h1
      · rw [ih _ _ _ h, skip (.inl h1)]
      · rw [ih _ _ _ h, app]
    · split_ifs at h with h1 h2
      · subst h1; rw [ih _ _ _ h, app]
      · exact next _ _ h2 h

/-- Reading a record loses at least one quote if there is one. -/
theorem csv_quotes (t : Bytes) : ∀ st cur fs, csvRest st cur t = some fs →
    countAll 34 fs + (if 34 ∈ t then 1 else 0) ≤ cur.count 34 + t.count 34 := by
  induction t with
  | nil =>
    intro st cur fs h
    cases st <;> simp [csvRest] at h <;> subst h <;> simp [countAll]
  | cons c t ih =>
    have app : ∀ cur : Bytes, (cur ++ [c]).count 34 + t.count 34 = cur.count 34 + (c :: t).count 34 := fun cur => by
      rw [List.count_append, List.count_cons, List.count_cons, List.count_nil]; omega
    have ne : c ≠ 34 → (34 ∈ c :: t ↔ 34 ∈ t) ∧ (c :: t).count 34 = t.count 34 := fun h =>
      ⟨by simp [Ne.symm h], List.count_cons_of_ne h⟩
    have eq : c = 34 → (34 ∈ c :: t) ∧ (c :: t).count 34 = t.count 34 + 1 := by rintro rfl; simp
    have next : ∀ (cur : Bytes) fs, c ≠ 34 → (csvRest .start [] t).map (cur :: ·) = some fs →
        countAll 34 fs + (if 34 ∈ c :: t then 1 else 0) ≤ cur.count 34 + (c :: t).count 34 := by
      intro cur fs hc h
      obtain ⟨gs, h1, rfl⟩ := Option.map_eq_some_iff.mp h
      have := ih _ _ _ h1
      rw [List.count_nil] at this
      rw [countAll_cons, (ne hc).2, if_congr (ne hc).1 rfl rfl]
      omega
    have plain : ∀ st (cur : Bytes) fs, c ≠ 34 → csvRest st (cur ++ [c]) t = some fs →
        countAll 34 fs + (if 34 ∈ c :: t then 1 else 0) ≤ cur.count 34 + (c :: t).count 34 := by
      intro st cur fs hc h
      have := ih _ _ _ h
      rw [app] at this
      rw [if_congr (ne hc).1 rfl rfl]
      exact this
    have quote : ∀ st (cur : Bytes) fs, c = 34 → csvRest st cur t = some fs →
        countAll 34 fs + (if 34 ∈ c :: t then 1 else 0) ≤ cur.count 34 + (c :: t).count 34 := by
      intro st cur fs hc h
      have := ih _ _ _ h
      rw [(eq hc).2, if_pos (eq hc).1]
      omega
    intro st cur fs h
    cases st <;> simp only [csvRest] at h
    · split_ifs at h with h1 h2 h3
      · exact quote _ _ _ h1 h
      · exact next _ _ h1 h
      · exact plain _ _ _ h1 h
    · split_ifs at h with h1 h2 h3
      · exact next _ _ h1 h
      · exact plain _ _ _ h1 h
    · split_ifs at h with h1
      · exact quote _ _ _ h1 h
      · exact plain _ _ _ h1 h
    · split_ifs at h with h1 h2
      · subst h1
        have h34 : 34 ∈ t := by
          by_contra hn
          have : ∀ (t : Bytes) cur, 34 ∉ t → csvRest .quoted cur t = none := by
            intro t
            induction t with
            | nil => intro _ _; rfl
            | cons b t ih =>
              intro cur hn
              rw [csvRest, if_neg (by rintro rfl; exact hn (by simp))]
              exact ih _ fun hm => hn (by simp [hm])
          rw [this t _ hn] at h
          cases h
        have := ih _ _ _ h
        rw [app, if_pos h34] at this
        rw [if_pos (eq rfl).1]
        exact this
      · exact next _ _ h1 h

/-- Without quotes the fields have no commas and line ends. -/
theorem csv_clean (t : Bytes) (hq : 34 ∉ t) : ∀ st cur fs, st = .start ∨ st = .plain → 44 ∉ cur → 10 ∉ cur → 13 ∉ cur →
    csvRest st cur t = some fs → ∀ f ∈ fs, 44 ∉ f ∧ 10 ∉ f ∧ 13 ∉ f := by
  induction t with
  | nil =>
    rintro st cur fs hst h1 h2 h3 h f hf
    have : [cur] = fs := by rcases hst with rfl | rfl <;> simpa [csvRest] using h
    subst this
    rw [List.mem_singleton.mp hf]
    exact ⟨h1, h2, h3⟩
  | cons c t ih =>
    have hc : c ≠ 34 := by rintro rfl; exact hq (by simp)
    have hq' : 34 ∉ t := fun hm => hq (by simp [hm])
    rintro st cur fs hst h1 h2 h3 h
    have h' : (if c = 44 then (csvRest .start [] t).map (cur :: ·) else if c = 10 ∨ c = 13 then none
        else csvRest .plain (cur ++ [c]) t) = some fs := by
      rcases hst with rfl | rfl <;> simpa only [csvRest, if_neg hc] using h
    split_ifs at h' with h4 h5
    · obtain ⟨gs, h6, rfl⟩ := Option.map_eq_some_iff.mp h'
      intro f hf
      rcases List.mem_cons.mp hf with rfl | hf
      · exact ⟨h1, h2, h3⟩
      · exact ih hq' _ _ _ (.inl rfl) (by simp) (by simp) (by simp) h6 f hf
    · refine ih hq' _ _ _ (.inr rfl) ?_ ?_ ?_ h'
      · simpa [h1] using Ne.symm h4
      · simpa [h2] using fun e => h5 (.inl e.symm)
      · simpa [h3] using fun e => h5 (.inr e.symm)

/-- A byte that a plain CSV field may hold. -/
def CsvPlain (b : UInt8) : Prop := b ≠ 34 ∧ b ≠ 44 ∧ b ≠ 10 ∧ b ≠ 13

theorem csv_plain (st : CsvAt) (hst : st = .start ∨ st = .plain) (s : Bytes) (hs : ∀ b ∈ s, CsvPlain b) (cur r : Bytes) :
    ∃ st', (st' = .start ∨ st' = .plain) ∧ csvRest st cur (s ++ r) = csvRest st' (cur ++ s) r := by
  induction s generalizing st cur with
  | nil => exact ⟨st, hst, by simp⟩
  | cons c s ih =>
    obtain ⟨h1, h2, h3, h4⟩ := hs c (by simp)
    obtain ⟨st', h5, h6⟩ := ih .plain (.inr rfl) (fun b hb => hs b (by simp [hb])) (cur ++ [c])
    refine ⟨st', h5, ?_⟩
    rw [List.append_assoc, List.singleton_append] at h6
    rw [← h6, List.cons_append]
    rcases hst with rfl | rfl <;> simp [csvRest, h1, h2, h3, h4]

theorem csv_end (st : CsvAt) (hst : st = .start ∨ st = .plain ∨ st = .closed) (cur : Bytes) :
    csvRest st cur [] = some [cur] ∧ ∀ r, csvRest st cur (44 :: r) = (csvRest .start [] r).map (cur :: ·) := by
  rcases hst with rfl | rfl | rfl <;> simp [csvRest]

/-- Fields each read up to the comma after them. -/
theorem csv_record (ts ss : List Bytes) (hne : ss ≠ [])
    (h : List.Forall₂ (fun t s => ∀ r, ∃ st, (st = .start ∨ st = .plain ∨ st = .closed) ∧
      csvRest .start [] (t ++ r) = csvRest st s r) ts ss) : csvFields (record 44 ts) = some ss := by
  unfold csvFields
  induction h with
  | nil => exact absurd rfl hne
  | @cons t s ts ss h hs ih =>
    cases hs with
    | nil =>
      obtain ⟨st, h1, h2⟩ := h []
      rw [List.append_nil] at h2
      rw [record, h2, (csv_end st h1 s).1]
    | @cons t' s' ts ss h' hs =>
      obtain ⟨st, h1, h2⟩ := h (44 :: record 44 (t' :: ts))
      rw [record_two, h2, (csv_end st h1 s).2, ih (by simp)]
      rfl

theorem csv_plain_record (ss : List Bytes) (hne : ss ≠ []) (hs : ∀ s ∈ ss, ∀ b ∈ s, CsvPlain b) :
    csvFields (record 44 ss) = some ss := by
  refine csv_record ss ss hne ?_
  rw [List.forall₂_same]
  intro s h r
  obtain ⟨st, h1, h2⟩ := csv_plain .start (.inl rfl) s (hs s h) [] r
  exact ⟨st, h1.imp_right .inl, h2⟩

/-- C117, strings in CSV.  A record made by joining texts with commas reads as those texts exactly if none of them holds
a quote, a comma or a line end. -/
theorem C117_csv_string (ss : List Bytes) (hne : ss ≠ []) :
    csvFields (record 44 ss) = some ss ↔ ∀ s ∈ ss, ∀ b ∈ s, b ≠ 34 ∧ b ≠ 44 ∧ b ≠ 10 ∧ b ≠ 13 := by
  refine ⟨fun h => ?_, csv_plain_record ss hne⟩
  have h1 := csv_quotes _ _ _ _ h
  rw [count_record 34 44 (by decide), List.count_nil] at h1
  have hq : 34 ∉ record 44 ss := by
    intro hm
    rw [if_pos hm] at h1
    omega
  have h2 := csv_clean _ hq _ _ _ (.inl rfl) (by simp) (by simp) (by simp) h
  have h3 : countAll 34 ss = 0 := by
    rw [← count_record 34 44 (by decide)]; exact List.count_eq_zero.mpr hq
  intro s hs b hb
  have h34 : 34 ∉ s := by
    rw [← List.count_eq_zero]
    unfold countAll at h3
    exact List.sum_eq_zero_iff.mp h3 _ (List.mem_map.mpr ⟨s, hs, rfl⟩)
  obtain ⟨h4, h5, h6⟩ := h2 s hs
  refine ⟨?_, ?_, ?_, ?_⟩ <;> rintro rfl
  exacts [h34 hb, h4 hb, h5 hb, h6 hb]

example : csvFields (ascii "1,\"a,\"\"b\",") = some [ascii "1", ascii "a,\"b", []] ∧ csvFields (ascii "\"a\"b") = none ∧
    csvFields (ascii "a\"b") = none := by decide +kernel

theorem jsonB_backslash (c : UInt8) : (jsonB c).count 92 = [c].count 92 + (if c = 34 ∨ c = 92 ∨ c < 32 then 1 else 0) := by
  revert c; refine forall_byte ?_; decide +kernel

theorem flat_backslash (s : Bytes) : s.count 92 ≤ (s.flatMap jsonB).count 92 ∧
    ((s.flatMap jsonB).count 92 = s.count 92 → ∀ b ∈ s, b ≠ 34 ∧ b ≠ 92 ∧ ¬ b < 32) := by
  induction s with
  | nil => simp
  | cons c s ih =>
    have h := jsonB_backslash c
    have e : (c :: s).count 92 = [c].count 92 + s.count 92 := by
      rw [← List.singleton_append, List.count_append]
    rw [List.flatMap_cons, List.count_append, e, h]
    refine ⟨by omega, fun h2 => ?_⟩
    by_cases hc : c = 34 ∨ c = 92 ∨ c < 32
    · rw [if_pos hc] at h2; omega
    · rw [if_neg hc] at h2
      push Not at hc
      intro b hb
      rcases List.mem_cons.mp hb with rfl | hb
      · exact ⟨hc.1, hc.2.1, by simpa using hc.2.2⟩
      · exact ih.2 (by omega) b hb

theorem csv_quoted (s : Bytes) (hs : ∀ b ∈ s, b ≠ 34) (cur r : Bytes) :
    csvRest .quoted cur (s ++ 34 :: r) = csvRest .closed (cur ++ s) r := by
  induction s generalizing cur with
  | nil => simp [csvRest]
  | cons c s ih =>
    rw [List.cons_append, csvRest, if_neg (hs c (by simp)), ih fun b hb => hs b (by simp [hb])]
    simp

/-- C117, JSON strings in CSV.  JSON strings joined with commas read as a record of the strings they stand for exactly if
JSON had nothing to escape in any of them: no quote, no backslash, no control character.  Commas do no harm. -/
theorem C117_csv_json (sgn : Bool) (ss ts : List Bytes) (hne : ss ≠ [])
    (h : List.Forall₂ (fun s t => jsonifyStr sgn s = .ok t) ss ts) :
    csvFields (record 44 ts) = some ss ↔ ∀ s ∈ ss, ∀ b ∈ s, b ≠ 34 ∧ b ≠ 92 ∧ ¬ b < 32 := by
  have h' : List.Forall₂ (fun s t => t = 34 :: (s.flatMap jsonB ++ [34])) ss ts :=
    h.imp fun s t hst => (Res.ok.inj (hst.symm.trans (jsonifyStr_eq sgn s)))
  clear h
  constructor
  · intro h
    have h1 := csv_count 92 (by decide) (by decide) _ _ _ _ h
    rw [count_record 92 44 (by decide), List.count_nil, Nat.zero_add] at h1
    clear h hne
    have c1 : ∀ s : Bytes, (34 :: (s.flatMap jsonB ++ [34])).count 92 = (s.flatMap jsonB).count 92 := fun s => by
      rw [List.count_cons_of_ne (by decide), List.count_append]; rfl
    have le : ∀ ss ts : List Bytes, List.Forall₂ (fun s t => t = 34 :: (s.flatMap jsonB ++ [34])) ss ts →
        countAll 92 ss ≤ countAll 92 ts := by
      intro ss ts h
      induction h with
      | nil => exact le_refl _
      | @cons s t ss ts h hs ih =>
        subst h
        rw [countAll_cons, countAll_cons, c1]
        have := (flat_backslash s).1
        omega
    induction h' with
    | nil => simp
    | @cons s t ss ts h hs ih =>
      subst h
      rw [countAll_cons, countAll_cons, c1] at h1
      have h2 := flat_backslash s
      have h3 := le _ _ hs
      intro x hx
      rcases List.mem_cons.mp hx with rfl | hx
      · exact h2.2 (by omega)
      · exact ih (by omega) x hx
  · intro hs
    refine csv_record ts ss hne ?_
    clear hne
    induction h' with
    | nil => exact .nil
    | @cons s t ss ts h hs' ih =>
      refine .cons (fun r => ⟨.closed, .inr (.inr rfl), ?_⟩) (ih fun x hx => hs x (by simp [hx]))
      have hb := hs s (by simp)
      have e : s.flatMap jsonB = s := by
        clear hs hs' ih h
        induction s with
        | nil => rfl
        | cons c s ih =>
          have hc := hb c (by simp)
          have : ∀ c : UInt8, c ≠ 34 ∧ c ≠ 92 ∧ ¬ c < 32 → jsonB c = [c] := by
            refine forall_byte ?_; decide +kernel
          rw [List.flatMap_cons, this c hc, ih fun b hb' => hb b (by simp [hb'])]
          rfl
      rw [h, e, List.cons_append, csvRest, if_pos rfl, List.append_assoc, List.singleton_append,
        csv_quoted s (fun b hb' => (hb b hb').1)]
      rfl

example : jsonifyStr true (ascii "a,b") = .ok (ascii "\"a,b\"") ∧ csvFields (ascii "\"a,b\"") = some [ascii "a,b"] ∧
    jsonifyStr true (ascii "a\\") = .ok (ascii "\"a\\\\\"") ∧ csvFields (ascii "\"a\\\\\"") = some [ascii "a\\\\"] := by
  decide +kernel

theorem scalar_unreserved (b : UInt8) : ScalarByte b → Unreserved b ∧ CsvPlain b ∧ b ≠ 37 ∧ b ≠ 43 ∧ b ≠ 38 := by
  unfold CsvPlain
  revert b; refine forall_byte ?_; decide +kernel

/-- C117, values in CSV.  For arguments other than characters and strings, the texts joined with commas are a record of
those texts, and every argument that survives on the platform (C73) comes back from its field. -/
theorem C117_csv_values (m : Machine) (hm : m.Ok) (hL : m.literals = .default) (F : FpFormat) (as : List Arg)
    (hne : as ≠ []) (he : ∀ a ∈ as, a.Exists m.platform) (ht : ∀ a ∈ as, ¬ a.Textual) :
    ∃ ts fs, List.Forall₂ (fun a t => a.string m = .ok t) as ts ∧ csvFields (record 44 ts) = some fs ∧
      List.Forall₂ (fun a f => a.string m = .ok f ∧
        (a.Survives F → ∃ T b, a.target = some T ∧ T.lexi m.literals F (.stdString f) = .ok b ∧ a.Same b)) as fs := by
  obtain ⟨ts, h1, h2⟩ : ∃ ts, List.Forall₂ (fun a t => a.string m = .ok t) as ts ∧
      ∀ t ∈ ts, ∀ b ∈ t, CsvPlain b := by
    clear hne
    induction as with
    | nil => exact ⟨[], .nil, by simp⟩
    | cons a as ih =>
      obtain ⟨ts, h1, h2⟩ := ih (fun a h => he a (by simp [h])) (fun a h => ht a (by simp [h]))
      obtain ⟨t, -, h3, h4, -⟩ := scalar_bytes m hm hL a (he a (by simp)) (ht a (by simp))
      refine ⟨t :: ts, .cons h3 h1, ?_⟩
      intro x hx
      rcases List.mem_cons.mp hx with rfl | hx
      · exact fun b hb => (scalar_unreserved b (h4 b hb)).2.1
      · exact h2 x hx
  have hne' : ts ≠ [] := by rintro rfl; cases h1; exact hne rfl
  refine ⟨ts, ts, h1, csv_plain_record ts hne' h2, ?_⟩
  clear hne hne' h2
  induction h1 with
  | nil => exact .nil
  | @cons a t as ts h h1 ih =>
    refine .cons ⟨h, fun hsv => ?_⟩ (ih (fun a h => he a (by simp [h])) (fun a h => ht a (by simp [h])))
    obtain ⟨T, t', b, h3, h4, h5, h6⟩ := C73_round_trip m hm hL F a (he a (by simp)) hsv
    rw [← Res.ok.inj (h4.symm.trans h)]
    exact ⟨T, b, h3, h5, h6⟩

/-! ### Query strings -/

theorem form_cons (b : UInt8) (h : b ≠ 37) (t : Bytes) :
    formDecode (b :: t) = (formDecode t).map ((if b = 43 then 32 else b) :: ·) := by
  rw [formDecode.eq_def]; simp [h]

theorem form_percent (t v : Bytes) (h : formDecode (37 :: t) = some v) :
    ∃ h' l r a b w, t = h' :: l :: r ∧ hexVal h' = some a ∧ hexVal l = some b ∧ formDecode r = some w ∧
      v = UInt8.ofNat (a * 16 + b) :: w := by
  rw [formDecode.eq_def] at h
  dsimp only at h
  rw [if_pos rfl] at h
  split at h
  · split at h
    · next h1 h2 h3 => exact ⟨_, _, _, _, _, _, rfl, h1, h2, h3, (Option.some.inj h).symm⟩
    · cases h
  · cases h

/-- Decoding does not remove bytes without meaning in query strings. -/
theorem form_count (c : UInt8) (h37 : c ≠ 37) (h43 : c ≠ 43) (hx : hexVal c = none) (n : ℕ) : ∀ t v : Bytes,
    t.length ≤ n → formDecode t = some v → t.count c ≤ v.count c := by
  induction n with
  | zero =>
    intro t v hn h
    obtain rfl := List.length_eq_zero_iff.mp (Nat.le_zero.mp hn)
    simp
  | succ n ih =>
    intro t v hn h
    cases t with
    | nil => simp
    | cons b t =>
      by_cases hb : b = 37
      · subst hb
        obtain ⟨x, l, r, a, b, w, rfl, h1, h2, h3, rfl⟩ := form_percent t v h
        have hx1 : x ≠ c := by rintro rfl; rw [hx] at h1; cases h1
        have hl1 : l ≠ c := by rintro rfl; rw [hx] at h2; cases h2
        rw [List.count_cons_of_ne (Ne.symm h37), List.count_cons_of_ne hx1, List.count_cons_of_ne hl1]
        refine le_trans (ih r w (by simp at hn; omega) h3) ?_
        rw [List.count_cons]; omega
      · rw [form_cons b hb] at h
        obtain ⟨w, h1, rfl⟩ := Option.map_eq_some_iff.mp h
        have := ih t w (by simp at hn; omega) h1
        by_cases hbc : b = c
        · subst hbc
          rw [if_neg h43, List.count_cons_self, List.count_cons_self]; omega
        · rw [List.count_cons_of_ne hbc, List.count_cons]; omega

/-- Decoding makes a text shorter if there is a `%`. -/
theorem form_length (n : ℕ) : ∀ t v : Bytes, t.length ≤ n → formDecode t = some v →
    v.length + (if 37 ∈ t then 1 else 0) ≤ t.length := by
  induction n with
  | zero =>
    intro t v hn h
    obtain rfl := List.length_eq_zero_iff.mp (Nat.le_zero.mp hn)
    simp [formDecode] at h
    subst h; simp
  | succ n ih =>
    intro t v hn h
    cases t with
    | nil => simp [formDecode] at h; subst h; simp
    | cons b t =>
      by_cases hb : b = 37
      · subst hb
        obtain ⟨x, l, r, a, b, w, rfl, h1, h2, h3, rfl⟩ := form_percent t v h
        have := ih r w (by simp at hn; omega) h3
        rw [if_pos (by simp)]
        simp only [List.length_cons]
        omega
      · rw [form_cons b hb] at h
        obtain ⟨w, h1, rfl⟩ := Option.map_eq_some_iff.mp h
        have := ih t w (by simp at hn; omega) h1
        have e : (37 ∈ b :: t) ↔ 37 ∈ t := by simp [Ne.symm hb]
        rw [if_congr e rfl rfl]
        simp only [List.length_cons]
        omega

theorem form_same (s : Bytes) (hs : ∀ b ∈ s, b ≠ 37 ∧ b ≠ 43) : formDecode s = some s := by
  induction s with
  | nil => rfl
  | cons b s ih =>
    obtain ⟨h1, h2⟩ := hs b (by simp)
    rw [form_cons b h1, ih fun b hb => hs b (by simp [hb]), if_neg h2]
    rfl

/-- C117, strings in query strings.  A text put into a query string as it is decodes to itself exactly if it holds no `%`
and no `+`; the escaped text decodes to the text exactly if nothing was escaped; the JSON string never does. -/
theorem C117_form_string (sgn : Bool) (s : Bytes) :
    (formDecode s = some s ↔ ∀ b ∈ s, b ≠ 37 ∧ b ≠ 43) ∧
    (formDecode (escapeStr sgn s) = some s ↔ ∀ b ∈ s, ¬ NeedsEscape b) ∧
    ∃ j, jsonifyStr sgn s = .ok j ∧ formDecode j ≠ some s := by
  refine ⟨⟨fun h => ?_, form_same s⟩, ⟨fun h => ?_, fun h => ?_⟩, _, jsonifyStr_eq sgn s, fun h => ?_⟩
  · have h37 : 37 ∉ s := by
      intro hm
      have := form_length _ s s (le_refl _) h
      rw [if_pos hm] at this
      omega
    intro b hb
    refine ⟨by rintro rfl; exact h37 hb, ?_⟩
    rintro rfl
    clear * - h h37 hb
    induction s with
    | nil => cases hb
    | cons c s ih =>
      rw [form_cons c (by rintro rfl; exact h37 (by simp))] at h
      obtain ⟨w, h1, h2⟩ := Option.map_eq_some_iff.mp h
      obtain ⟨h3, rfl⟩ := List.cons.inj h2
      rcases List.mem_cons.mp hb with rfl | hb
      · exact absurd h3 (by decide)
      · exact ih h1 (fun hm => h37 (by simp [hm])) hb
  · have h1 := form_count 92 (by decide) (by decide) (by decide) _ _ _ (le_refl _) h
    rw [escapeStr, escape_eq] at h1
    have key : ∀ s : Bytes, s.count 92 ≤ (s.flatMap escB).count 92 ∧
        ((s.flatMap escB).count 92 ≤ s.count 92 → ∀ b ∈ s, ¬ NeedsEscape b) := by
      intro s
      induction s with
      | nil => simp
      | cons c s ih =>
        have e : (c :: s).count 92 = [c].count 92 + s.count 92 := by
          rw [← List.singleton_append, List.count_append]
        rw [List.flatMap_cons, List.count_append, e]
        by_cases hc : NeedsEscape c
        · have e2 : (escB c).count 92 = [c].count 92 + 1 := by
            rw [escB, if_pos hc, List.count_cons_self]
          rw [e2]
          exact ⟨by omega, fun h => by omega⟩
        · rw [escB, if_neg hc]
          refine ⟨by omega, fun h b hb => ?_⟩
          rcases List.mem_cons.mp hb with rfl | hb
          · exact hc
          · exact ih.2 (by omega) b hb
    exact (key s).2 h1
  · have e : escapeStr sgn s = s := by
      rw [escapeStr, escape_eq]
      clear * - h
      induction s with
      | nil => rfl
      | cons c s ih =>
        rw [List.flatMap_cons, escB, if_neg (h c (by simp)), ih fun b hb => h b (by simp [hb])]
        rfl
    rw [e]
    refine form_same s fun b hb => ⟨?_, ?_⟩ <;> rintro rfl
    · exact h 37 hb (by decide)
    · exact h 43 hb (by decide)
  · have h1 := form_count 34 (by decide) (by decide) (by decide) _ _ _ (le_refl _) h
    have h2 : ∀ c : UInt8, (jsonB c).count 34 = [c].count 34 := by
      refine forall_byte ?_; decide +kernel
    have h3 : ∀ s : Bytes, (s.flatMap jsonB).count 34 = s.count 34 := by
      intro s
      induction s with
      | nil => rfl
      | cons c s ih =>
        rw [List.flatMap_cons, List.count_append, ih, h2, ← List.count_append]; rfl
    rw [List.count_cons_self, List.count_append, h3] at h1
    omega

example : formDecode (ascii "a+b%2B") = some (ascii "a b+") ∧ formDecode (ascii "%2") = none ∧
    escapeStr true (ascii "a+b") = ascii "a\\+b" ∧ formDecode (ascii "a\\+b") = some (ascii "a\\ b") := by decide +kernel

theorem split_unreserved (s : Bytes) (hs : ∀ b ∈ s, b ≠ 38) (cur r : Bytes) :
    splitPlain 38 cur (s ++ r) = splitPlain 38 (cur ++ s) r := by
  induction s generalizing cur with
  | nil => simp
  | cons c s ih =>
    rw [List.cons_append, splitPlain, if_neg (hs c (by simp)), ih fun b hb => hs b (by simp [hb])]
    simp

theorem split_form (ps : List Bytes) (hne : ps ≠ []) (hs : ∀ p ∈ ps, ∀ b ∈ p, b ≠ 38) :
    splitPlain 38 [] (record 38 ps) = ps := by
  induction ps with
  | nil => exact absurd rfl hne
  | cons p ps ih =>
    have hp := split_unreserved p (hs p (by simp)) []
    cases ps with
    | nil =>
      have := hp []
      rw [List.append_nil] at this
      rw [record, this]; rfl
    | cons q qs =>
      rw [record_two, hp, splitPlain, if_pos rfl, ih (by simp) fun p h => hs p (by simp [h])]
      rfl

theorem unreserved_plain (b : UInt8) : Unreserved b → b ≠ 37 ∧ b ≠ 43 ∧ b ≠ 38 ∧ b ≠ 61 := by
  revert b; refine forall_byte ?_; decide +kernel

theorem cut_form (n v : Bytes) (hn : ∀ b ∈ n, b ≠ 61) : cutAtEquals (n ++ 61 :: v) = (n, v) := by
  induction n with
  | nil => simp [cutAtEquals]
  | cons c n ih =>
    rw [List.cons_append, cutAtEquals, if_neg (hn c (by simp)), ih fun b hb => hn b (by simp [hb])]

/-- C117, values in query strings.  For arguments other than characters and strings the text holds only bytes that URLs
leave unreserved.  With names of such bytes, the names and texts joined to a query string decode to themselves, and every
argument that survives on the platform (C73) comes back from its value. -/
theorem C117_form_values (m : Machine) (hm : m.Ok) (hL : m.literals = .default) (F : FpFormat)
    (ps : List (Bytes × Arg)) (hne : ps ≠ []) (hk : ∀ p ∈ ps, ∀ b ∈ p.1, Unreserved b)
    (he : ∀ p ∈ ps, p.2.Exists m.platform) (ht : ∀ p ∈ ps, ¬ p.2.Textual) :
    ∃ ts : List (Bytes × Bytes), List.Forall₂ (fun p t => t.1 = p.1 ∧ p.2.string m = .ok t.2 ∧
        (∀ b ∈ t.2, Unreserved b) ∧
        (p.2.Survives F → ∃ T b, p.2.target = some T ∧ T.lexi m.literals F (.stdString t.2) = .ok b ∧ p.2.Same b)) ps ts ∧
      formPairs (record 38 (ts.map fun t => t.1 ++ 61 :: t.2)) = some ts := by
  obtain ⟨ts, h1, h2⟩ : ∃ ts : List (Bytes × Bytes), List.Forall₂ (fun p t => t.1 = p.1 ∧ p.2.string m = .ok t.2 ∧
        (∀ b ∈ t.2, Unreserved b) ∧
        (p.2.Survives F → ∃ T b, p.2.target = some T ∧ T.lexi m.literals F (.stdString t.2) = .ok b ∧ p.2.Same b)) ps ts ∧
      ∀ t ∈ ts, (∀ b ∈ t.1, Unreserved b) ∧ ∀ b ∈ t.2, Unreserved b := by
    clear hne
    induction ps with
    | nil => exact ⟨[], .nil, by simp⟩
    | cons p ps ih =>
      obtain ⟨ts, h1, h2⟩ := ih (fun a h => hk a (by simp [h])) (fun a h => he a (by simp [h]))
        (fun a h => ht a (by simp [h]))
      obtain ⟨t, -, h3, h4, -⟩ := scalar_bytes m hm hL p.2 (he p (by simp)) (ht p (by simp))
      have h5 : ∀ b ∈ t, Unreserved b := fun b hb => (scalar_unreserved b (h4 b hb)).1
      refine ⟨(p.1, t) :: ts, .cons ⟨rfl, h3, h5, fun hsv => ?_⟩ h1, ?_⟩
      · obtain ⟨T, t', b, h6, h7, h8, h9⟩ := C73_round_trip m hm hL F p.2 (he p (by simp)) hsv
        rw [← Res.ok.inj (h7.symm.trans h3)]
        exact ⟨T, b, h6, h8, h9⟩
      · intro x hx
        rcases List.mem_cons.mp hx with rfl | hx
        · exact ⟨hk p (by simp), h5⟩
        · exact h2 x hx
  have hne' : ts ≠ [] := by rintro rfl; cases h1; exact hne rfl
  refine ⟨ts, h1, ?_⟩
  rw [formPairs, split_form _ (by simpa using hne')]
  · clear hne hne' h1
    induction ts with
    | nil => rfl
    | cons t ts ih =>
      obtain ⟨h3, h4⟩ := h2 t (by simp)
      have e : formPair (t.1 ++ 61 :: t.2) = some t := by
        rw [formPair, cut_form _ _ fun b hb => (unreserved_plain b (h3 b hb)).2.2.2]
        dsimp only
        rw [form_same _ fun b hb => ⟨(unreserved_plain b (h3 b hb)).1, (unreserved_plain b (h3 b hb)).2.1⟩,
          form_same _ fun b hb => ⟨(unreserved_plain b (h4 b hb)).1, (unreserved_plain b (h4 b hb)).2.1⟩]
      rw [List.map_cons, List.mapM_cons, e, ih fun t h => h2 t (by simp [h])]
      rfl
  · intro p hp b hb
    obtain ⟨t, h3, rfl⟩ := List.mem_map.mp hp
    obtain ⟨h4, h5⟩ := h2 t h3
    rcases List.mem_append.mp hb with hb | hb
    · exact (unreserved_plain b (h4 b hb)).2.2.1
    · rcases List.mem_cons.mp hb with rfl | hb
      · decide
      · exact (unreserved_plain b (h5 b hb)).2.2.1

example : formPairs (ascii "a=1.5&b=-2") = some [(ascii "a", ascii "1.5"), (ascii "b", ascii "-2")] := by decide +kernel

end Lexi
