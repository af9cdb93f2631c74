import Verif.Model.IntFmt
import Verif.Proofs.Itoa
import Verif.Spec.IntText

namespace Lexi
open Spec

/-! ## Formatting -/

theorem build_puts (junk : Bytes) (t : Bytes) (h : t.length < junk.length) (f : Cur → Res Cur)
    (hf : ∀ b, f b = b.puts t) :
    IntObj.build junk f = .ok ⟨t ++ 0 :: junk.drop (t.length + 1), 0, t.length⟩ := by
  unfold IntObj.build
  rw [hf, Cur.puts_ok _ _ (by simp; omega)]
  simp only [Res.ok_bind, List.take_zero, List.nil_append, Nat.zero_add]
  have e := Cur.puts_ok ⟨t ++ junk.drop t.length, t.length⟩ [0] (by simp; omega)
  rw [Itoa.put_eq_puts, e]
  simp

/-- A platform whose preprocessor macros tell the truth about the width of `long`: Windows has 32-bit
`long`; elsewhere the compiler defines one of the 64-bit macros when `long` is 64 bits wide. -/
def Platform.Supported (p : Platform) : Prop :=
  p.longIs64 = true → p.win32 = false ∧ p.gnuc = true ∧ p.macro64 = true

/-- A `long` value has the width the platform says. -/
def IntVal.Fits (p : Platform) : IntVal → Prop
  | .long32 _ | .ulong32 _ => p.longIs64 = false
  | .long64 _ | .ulong64 _ => p.longIs64 = true
  | _ => True

theorem Platform.Supported.path {p : Platform} (h : p.Supported) (hl : p.longIs64 = true) :
    p.long64Path = true := by
  obtain ⟨a, b, c⟩ := h hl
  simp [Platform.long64Path, Platform.arch, a, b, c]

theorem IntVal.toInt_bounds (v : IntVal) : -2 ^ 63 ≤ v.toInt ∧ v.toInt < 2 ^ 64 := by
  cases v <;> simp only [IntVal.toInt] <;> rename_i x
  · have := x.le_toInt; have := x.toInt_lt; omega
  · have := x.toNat_lt; omega
  · have := x.le_toInt; have := x.toInt_lt; omega
  · have := x.toNat_lt; omega
  · have := x.le_toInt; have := x.toInt_lt; omega
  · have := x.toNat_lt; omega
  · have := x.le_toInt; have := x.toInt_lt; omega
  · have := x.toNat_lt; omega
  · have := x.le_toInt; have := x.toInt_lt; omega
  · have := x.toNat_lt; omega
  · have := x.le_toInt; have := x.toInt_lt; omega
  · have := x.toNat_lt; omega

theorem decimalText_length_le (n : Int) (h1 : -2 ^ 63 ≤ n) (h2 : n < 2 ^ 64) :
    (decimalText n).length ≤ 20 := by
  by_cases h : n < 0
  · rw [decimalText_neg n h, List.length_cons]
    have := decN_length_le 19 n.natAbs (by omega) (by omega)
    omega
  · rw [decimalText_nonneg n (by omega)]
    exact decN_length_le 20 n.natAbs (by omega) (by omega)

theorem formatInt_eq (p : Platform) (hp : p.Supported) (junk : Bytes) (hj : junk.length = INTEGER_SIZE)
    (v : IntVal) (hv : v.Fits p) :
    formatInt p junk v =
      .ok ⟨decimalText v.toInt ++ 0 :: junk.drop ((decimalText v.toInt).length + 1), 0,
        (decimalText v.toInt).length⟩ := by
  have hl : (decimalText v.toInt).length < junk.length := by
    have := decimalText_length_le _ (v.toInt_bounds).1 (v.toInt_bounds).2
    rw [hj]; unfold INTEGER_SIZE; omega
  cases v <;> simp only [formatInt] <;> refine build_puts junk _ hl _ ?_ <;> intro b <;> rename_i x
  · rw [Itoa.i32toa_eq]; simp [IntVal.toInt]
  · rw [Itoa.u32toa_eq, IntVal.toInt, decimalText_natCast]; simp
  · rw [Itoa.i32toa_eq]; simp [IntVal.toInt]
  · rw [Itoa.u32toa_eq, IntVal.toInt, decimalText_natCast]; simp
  · rw [Itoa.i32toa_eq]; simp [IntVal.toInt]
  · rw [Itoa.u32toa_eq, IntVal.toInt, decimalText_natCast]
  · split
    · rw [Itoa.i64toa_eq]; simp [IntVal.toInt]
    · rw [Itoa.i32toa_eq]; simp [IntVal.toInt]
  · split
    · rw [Itoa.u64toa_eq, IntVal.toInt, decimalText_natCast]; simp
    · rw [Itoa.u32toa_eq, IntVal.toInt, decimalText_natCast]
  · rw [if_pos (hp.path hv), Itoa.i64toa_eq]; simp [IntVal.toInt]
  · rw [if_pos (hp.path hv), Itoa.u64toa_eq, IntVal.toInt, decimalText_natCast]
  · rw [Itoa.i64toa_eq]; simp [IntVal.toInt]
  · rw [Itoa.u64toa_eq, IntVal.toInt, decimalText_natCast]

theorem readN_prefix (t r : Bytes) : readN (t ++ r) 0 t.length = .ok t := by
  simp [readN]

theorem stringInt_eq (p : Platform) (hp : p.Supported) (junk : Bytes) (hj : junk.length = INTEGER_SIZE)
    (v : IntVal) (hv : v.Fits p) : stringInt p junk v = .ok (decimalText v.toInt) := by
  rw [stringInt, formatInt_eq p hp junk hj v hv]
  simp [IntObj.string, IntObj.data, IntObj.c_str, IntObj.size, readN_prefix]

theorem decimalText_injective {a b : Int} (h : decimalText a = decimalText b) : a = b := by
  by_cases ha : a < 0 <;> by_cases hb : b < 0
  · rw [decimalText_neg a ha, decimalText_neg b hb] at h
    have := decN_injective (List.cons.inj h).2
    omega
  · rw [decimalText_neg a ha, decimalText_nonneg b (by omega)] at h
    have := decN_digits b.natAbs 45 (by rw [← h]; simp)
    exact absurd this (by decide)
  · rw [decimalText_nonneg a (by omega), decimalText_neg b hb] at h
    have := decN_digits a.natAbs 45 (by rw [h]; simp)
    exact absurd this (by decide)
  · rw [decimalText_nonneg a (by omega), decimalText_nonneg b (by omega)] at h
    have := decN_injective h
    omega

/-! ## Order -/

theorem lt_append_of_lt_of_length {a b : Bytes} (h : a < b) (hl : a.length = b.length) (c d : Bytes) :
    a ++ c < b ++ d := by
  induction a generalizing b with
  | nil =>
    cases b with
    | nil => exact absurd h (List.lt_irrefl _)
    | cons y ys => simp at hl
  | cons x xs ih =>
    cases b with
    | nil => simp at hl
    | cons y ys =>
      rw [List.cons_append, List.cons_append]
      rw [List.cons_lt_cons_iff] at h ⊢
      rcases h with h | ⟨h1, h2⟩
      · exact Or.inl h
      · exact Or.inr ⟨h1, ih h2 (by simpa using hl)⟩

theorem append_lt_append_left {a b : Bytes} (p : Bytes) (h : a < b) : p ++ a < p ++ b := by
  induction p with
  | nil => exact h
  | cons x xs ih =>
    rw [List.cons_append, List.cons_append, List.cons_lt_cons_iff]
    exact Or.inr ⟨rfl, ih⟩

theorem decN_order (a b : Nat) (h : a < b) :
    (decN a).length < (decN b).length ∨ ((decN a).length = (decN b).length ∧ decN a < decN b) := by
  induction b using Nat.strongRecOn generalizing a with
  | _ b ih =>
    have dlt : ∀ x y : Nat, x < y → y < 10 → dig x < dig y := by
      intro x y h1 h2
      rw [UInt8.lt_iff_toNat_lt, dig_toNat _ h2, dig_toNat _ (by omega)]; omega
    rw [decN.eq_def a, decN.eq_def b]
    by_cases hb : b < 10
    · have ha : a < 10 := by omega
      right
      simp only [ha, hb, dite_true, List.length_singleton, true_and]
      rw [List.cons_lt_cons_iff]
      exact Or.inl (dlt a b h hb)
    · by_cases ha : a < 10
      · left
        have : 0 < (decN (b / 10)).length := List.length_pos_iff.mpr (decN_ne_nil _)
        simp only [ha, hb, dite_true, dite_false, List.length_singleton, List.length_append]
        omega
      · simp only [ha, hb, dite_false, List.length_append, List.length_singleton]
        by_cases he : a / 10 = b / 10
        · right
          refine ⟨by rw [he], ?_⟩
          rw [he]
          apply append_lt_append_left
          rw [List.cons_lt_cons_iff]
          exact Or.inl (dlt _ _ (by omega) (by omega))
        · rcases ih (b / 10) (by omega) (a / 10) (by omega) with h1 | ⟨h1, h2⟩
          · left; omega
          · right
            exact ⟨by omega, lt_append_of_lt_of_length h2 h1 _ _⟩

/-! ## Extraction -/

theorem isdigit_iff (c : UInt8) : isdigit c = true ↔ IsDigit c := by
  simp [isdigit, IsDigit]

theorem isspace_iff (c : UInt8) : isspace c = true ↔ IsSpace c := by
  have : ∀ c : Fin 256, isspace (UInt8.ofNat c) = true ↔ IsSpace (UInt8.ofNat c) := by
    unfold IsSpace; decide +kernel
  have := this ⟨c.toNat, c.toNat_lt⟩
  simpa using this

theorem cstr_eq {s t : Bytes} (h : CString s t) : cstr s = t := by
  obtain ⟨h0, h⟩ := h
  have key : ∀ r, (t ++ r).takeWhile (· != 0) = t ++ r.takeWhile (· != (0 : UInt8)) := by
    intro r
    rw [List.takeWhile_append_of_pos]
    intro a ha
    simp only [bne_iff_ne, ne_eq]
    rintro rfl; exact h0 ha
  rcases h with rfl | ⟨r, rfl⟩
  · have := key []; simpa [cstr] using this
  · have := key (0 :: r); simpa [cstr] using this

theorem cstring_cstr (s : Bytes) : CString s (cstr s) := by
  induction s with
  | nil => exact ⟨by simp [cstr], Or.inl rfl⟩
  | cons a as ih =>
    by_cases h : a = 0
    · subst h
      refine ⟨by simp [cstr], Or.inr ⟨as, by simp [cstr]⟩⟩
    · have e : cstr (a :: as) = a :: cstr as := by
        simp [cstr, h]
      rw [e]
      obtain ⟨h1, h2⟩ := ih
      refine ⟨by simp [h1, Ne.symm h], ?_⟩
      rcases h2 with h2 | ⟨r, h2⟩
      · left; rw [← h2]
      · right; exact ⟨r, by rw [List.cons_append, ← h2]⟩

theorem scanDigits_eq (acc : Nat) (ds rest : Bytes) (hd : ∀ b ∈ ds, IsDigit b)
    (hr : ∀ b, rest.head? = some b → ¬ IsDigit b) :
    scanDigits acc (ds ++ rest) = ds.foldl (fun acc b => acc * 10 + (b.toNat - 48)) acc := by
  induction ds generalizing acc with
  | nil =>
    cases rest with
    | nil => rfl
    | cons c cs =>
      have : ¬ isdigit c = true := by rw [isdigit_iff]; exact hr c rfl
      simp [scanDigits, this]
  | cons d ds ih =>
    have hdd : isdigit d = true := by rw [isdigit_iff]; exact hd d (by simp)
    rw [List.cons_append, scanDigits, if_pos hdd, List.foldl_cons]
    exact ih _ fun b hb => hd b (by simp [hb])

theorem skipSpace_append (ws t : Bytes) (h : ∀ b ∈ ws, IsSpace b) : skipSpace (ws ++ t) = skipSpace t := by
  induction ws with
  | nil => rfl
  | cons w ws ih =>
    have : isspace w = true := by rw [isspace_iff]; exact h w (by simp)
    rw [List.cons_append, skipSpace, if_pos this]
    exact ih fun b hb => h b (by simp [hb])

theorem skipSpace_of_head {c : UInt8} {cs : Bytes} (h : ¬ IsSpace c) : skipSpace (c :: cs) = c :: cs := by
  rw [skipSpace, if_neg]; rw [isspace_iff]; exact h

theorem digit_not_space {c : UInt8} (h : IsDigit c) : ¬ IsSpace c ∧ c ≠ 45 ∧ c ≠ 43 := by
  have : ∀ c : Fin 256, IsDigit (UInt8.ofNat c) → ¬ IsSpace (UInt8.ofNat c) ∧ UInt8.ofNat c ≠ 45 ∧
      UInt8.ofNat c ≠ 43 := by
    unfold IsSpace; decide +kernel
  have := this ⟨c.toNat, c.toNat_lt⟩
  simpa using this (by simpa using h)

theorem strtoull_of_intText {s : Bytes} {neg : Bool} {ds : Bytes} (h : IntText s neg ds) :
    strtoull s = if 2 ^ 64 ≤ digitsValue ds then 0xFFFFFFFFFFFFFFFF
      else if neg then 0 - UInt64.ofNat (digitsValue ds) else UInt64.ofNat (digitsValue ds) := by
  obtain ⟨t, ws, sg, rest, hc, rfl, hw, hsg, hne, hd, hr⟩ := h
  have hs : scanSign (skipSpace (cstr s)) = (neg, ds ++ rest) := by
    rw [cstr_eq hc]
    simp only [List.append_assoc]
    rw [skipSpace_append _ _ hw]
    obtain ⟨d, ds', rfl⟩ := List.exists_cons_of_ne_nil hne
    have hdd := digit_not_space (hd d (by simp))
    rcases hsg with ⟨rfl, rfl⟩ | ⟨rfl, rfl⟩ | ⟨rfl, rfl⟩
    · rw [List.nil_append, List.cons_append, skipSpace_of_head hdd.1]
      simp [scanSign, hdd]
    · rw [List.singleton_append, skipSpace_of_head (by unfold IsSpace; decide)]
      simp [scanSign]
    · rw [List.singleton_append, skipSpace_of_head (by unfold IsSpace; decide)]
      simp [scanSign]
  unfold strtoull
  simp only [hs, scanDigits_eq 0 ds rest hd hr]
  rfl

/-- Splitting a string into its leading white space and the rest. -/
theorem skipSpace_split (t : Bytes) : ∃ ws, t = ws ++ skipSpace t ∧ ∀ b ∈ ws, IsSpace b := by
  induction t with
  | nil => exact ⟨[], rfl, by simp⟩
  | cons c cs ih =>
    by_cases h : isspace c = true
    · obtain ⟨ws, h1, h2⟩ := ih
      refine ⟨c :: ws, ?_, ?_⟩
      · rw [skipSpace, if_pos h, List.cons_append, ← h1]
      · intro b hb
        rcases List.mem_cons.mp hb with rfl | hb
        · exact (isspace_iff _).mp h
        · exact h2 b hb
    · exact ⟨[], by rw [skipSpace, if_neg h]; rfl, by simp⟩

theorem digits_split (t : Bytes) : ∃ ds rest, t = ds ++ rest ∧ (∀ b ∈ ds, IsDigit b) ∧
    (∀ b, rest.head? = some b → ¬ IsDigit b) := by
  induction t with
  | nil => exact ⟨[], [], rfl, by simp, by simp⟩
  | cons c cs ih =>
    by_cases h : IsDigit c
    · obtain ⟨ds, rest, rfl, h1, h2⟩ := ih
      refine ⟨c :: ds, rest, rfl, ?_, h2⟩
      intro b hb
      rcases List.mem_cons.mp hb with rfl | hb
      · exact h
      · exact h1 b hb
    · refine ⟨[], c :: cs, rfl, by simp, ?_⟩
      intro b hb
      simp at hb
      rwa [← hb]

theorem strtoull_no_text {s : Bytes} (h : ∀ neg ds, ¬ IntText s neg ds) : strtoull s = 0 := by
  obtain ⟨ws, h1, h2⟩ := skipSpace_split (cstr s)
  have hsg : ∃ sg, skipSpace (cstr s) = sg ++ (scanSign (skipSpace (cstr s))).2 ∧
      (sg = [] ∧ (scanSign (skipSpace (cstr s))).1 = false ∨
       sg = [43] ∧ (scanSign (skipSpace (cstr s))).1 = false ∨
       sg = [45] ∧ (scanSign (skipSpace (cstr s))).1 = true) := by
    generalize skipSpace (cstr s) = u
    cases u with
    | nil => exact ⟨[], rfl, Or.inl ⟨rfl, rfl⟩⟩
    | cons c cs =>
      rw [scanSign]
      by_cases c1 : c = 45
      · subst c1; exact ⟨[45], by simp, by simp⟩
      · by_cases c2 : c = 43
        · subst c2; exact ⟨[43], by simp, by simp⟩
        · exact ⟨[], by simp [c1, c2], by simp [c1, c2]⟩
  obtain ⟨sg, h3, h4⟩ := hsg
  obtain ⟨ds, rest, h5, h6, h7⟩ := digits_split (scanSign (skipSpace (cstr s))).2
  have hds : ds = [] := by
    by_cases hd : ds = []
    · exact hd
    · exfalso
      refine h _ ds ⟨cstr s, ws, sg, rest, cstring_cstr s, ?_, h2, h4, hd, h6, h7⟩
      calc cstr s = ws ++ skipSpace (cstr s) := h1
        _ = ws ++ (sg ++ (ds ++ rest)) := by rw [← h5, ← h3]
        _ = _ := by simp
  subst hds
  have hm : scanDigits 0 (scanSign (skipSpace (cstr s))).2 = 0 := by
    rw [h5, scanDigits_eq 0 [] rest (by simp) h7]; rfl
  unfold strtoull
  simp [hm]

/-! ## Conversions -/

/-- Signedness and width of a target type. -/
def IntTy.signed : IntTy → Bool
  | .i8 | .i16 | .i32 | .long32 | .long64 | .i64 => true
  | _ => false

/-- Width of a target type. -/
def IntTy.width : IntTy → Nat
  | .i8 | .u8 => 8
  | .i16 | .u16 => 16
  | .i32 | .u32 | .long32 | .ulong32 => 32
  | .long64 | .ulong64 | .i64 | .u64 => 64

theorem toInt64_toInt (d : UInt64) : d.toInt64.toInt = Int.bmod d.toNat (2 ^ 64) := by
  rw [← Int64.toInt_toBitVec]
  show d.toBitVec.toInt = _
  rw [BitVec.toInt_eq_toNat_bmod]
  rfl

theorem pow_dvd_pow' {a b : Nat} (h : a ≤ b) : (2 ^ a : Int) ∣ 2 ^ b := by
  have := Int.natCast_dvd_natCast.mpr (Nat.pow_dvd_pow 2 h)
  simpa using this

theorem bmod_bmod_dvd (n : Int) (k : Nat) (h : k ≤ 64) :
    Int.bmod (Int.bmod n (2 ^ 64)) (2 ^ k) = Int.bmod n (2 ^ k) := by
  exact Int.bmod_bmod_of_dvd (by exact Nat.pow_dvd_pow 2 h)

theorem convertInt_toInt (d : UInt64) (t : IntTy) :
    (convertInt d t).toInt = wrapInt t.signed t.width d.toNat := by
  cases t <;>
    simp only [convertInt, IntVal.toInt, wrapInt, IntTy.signed, IntTy.width, if_true,
      Int64.toInt_toInt8, Int64.toInt_toInt16, Int64.toInt_toInt32, toInt64_toInt]
  · exact bmod_bmod_dvd _ 8 (by omega)
  · simp
  · exact bmod_bmod_dvd _ 16 (by omega)
  · simp
  · exact bmod_bmod_dvd _ 32 (by omega)
  · simp
  · exact bmod_bmod_dvd _ 32 (by omega)
  · simp
  · have := d.toNat_lt; simp; omega
  · have := d.toNat_lt; simp; omega

theorem wrapInt_mod (sg : Bool) (w : Nat) (h : w ≤ 64) (n m : Int)
    (hm : (m - n) % 2 ^ 64 = 0) : wrapInt sg w m = wrapInt sg w n := by
  have hd : (2 ^ w : Int) ∣ m - n :=
    Int.dvd_trans (pow_dvd_pow' h) (Int.dvd_of_emod_eq_zero hm)
  have he : m % (2 ^ w : Int) = n % (2 ^ w : Int) :=
    Int.emod_eq_emod_iff_emod_sub_eq_zero.mpr (Int.emod_eq_zero_of_dvd hd)
  unfold wrapInt
  split
  · rw [Int.bmod_def, Int.bmod_def]; simp only [Int.natCast_pow, Int.cast_ofNat_Int, he]
  · exact he

theorem convertInt_ty (d : UInt64) (t : IntTy) : (convertInt d t).ty = t := by cases t <;> rfl

/-- The accumulator agrees with the number meant by the text modulo 2^64. -/
theorem strtoull_textNumber {s : Bytes} {neg : Bool} {ds : Bytes} (h : IntText s neg ds) :
    (((strtoull s).toNat : Int) - textNumber neg ds) % 2 ^ 64 = 0 := by
  rw [strtoull_of_intText h]
  unfold textNumber
  split
  · rfl
  · rename_i hlt
    have hv : (UInt64.ofNat (digitsValue ds)).toNat = digitsValue ds := by
      rw [UInt64.toNat_ofNat']; omega
    cases neg
    · simp only [Bool.false_eq_true, if_false]
      rw [hv]; omega
    · simp only [if_true]
      rw [UInt64.toNat_sub, hv]
      simp only [UInt64.toNat_zero]
      omega

theorem IntTy.width_le (t : IntTy) : t.width ≤ 64 := by cases t <;> simp [IntTy.width]

theorem lexiInt_textNumber {s : Bytes} {neg : Bool} {ds : Bytes} (h : IntText s neg ds) (t : IntTy) :
    (convertInt (extractInt s) t).toInt = wrapInt t.signed t.width (textNumber neg ds) := by
  rw [convertInt_toInt]
  exact wrapInt_mod _ _ t.width_le _ _ (strtoull_textNumber h)

theorem IntVal.ext' {a b : IntVal} (ht : a.ty = b.ty) (hv : a.toInt = b.toInt) : a = b := by
  cases a <;> cases b <;> simp only [IntVal.ty] at ht <;> first | contradiction | skip
  all_goals simp only [IntVal.toInt] at hv
  · rw [Int8.toInt_inj.mp hv]
  · rw [UInt8.toNat_inj.mp (Int.ofNat_inj.mp hv)]
  · rw [Int16.toInt_inj.mp hv]
  · rw [UInt16.toNat_inj.mp (Int.ofNat_inj.mp hv)]
  · rw [Int32.toInt_inj.mp hv]
  · rw [UInt32.toNat_inj.mp (Int.ofNat_inj.mp hv)]
  · rw [Int32.toInt_inj.mp hv]
  · rw [UInt32.toNat_inj.mp (Int.ofNat_inj.mp hv)]
  · rw [Int64.toInt_inj.mp hv]
  · rw [UInt64.toNat_inj.mp (Int.ofNat_inj.mp hv)]
  · rw [Int64.toInt_inj.mp hv]
  · rw [UInt64.toNat_inj.mp (Int.ofNat_inj.mp hv)]

theorem bmod_small (n : Int) (k : Nat) (h1 : -2 ^ k ≤ n) (h2 : n < 2 ^ k) :
    Int.bmod n (2 ^ (k + 1)) = n := by
  have : ((2 ^ (k + 1) : Nat) : Int) = 2 ^ k * 2 := by rw [Nat.pow_succ]; simp
  apply Int.bmod_eq_of_le <;> omega

theorem wrapInt_self (v : IntVal) : wrapInt v.ty.signed v.ty.width v.toInt = v.toInt := by
  cases v <;> simp only [IntVal.toInt, wrapInt, IntTy.signed, IntTy.width, IntVal.ty, if_true] <;>
    rename_i x
  · exact bmod_small _ 7 x.le_toInt x.toInt_lt
  · have := x.toNat_lt; simp; omega
  · exact bmod_small _ 15 x.le_toInt x.toInt_lt
  · have := x.toNat_lt; simp; omega
  · exact bmod_small _ 31 x.le_toInt x.toInt_lt
  · have := x.toNat_lt; simp; omega
  · exact bmod_small _ 31 x.le_toInt x.toInt_lt
  · have := x.toNat_lt; simp; omega
  · exact bmod_small _ 63 x.le_toInt x.toInt_lt
  · have := x.toNat_lt; simp; omega
  · exact bmod_small _ 63 x.le_toInt x.toInt_lt
  · have := x.toNat_lt; simp; omega

theorem digit_ne_zero {c : UInt8} (h : IsDigit c) : c ≠ 0 := by
  rintro rfl; exact absurd h (by decide)

theorem intText_decimal (n : Int) : IntText (decimalText n) (decide (n < 0)) (decN n.natAbs) := by
  have h0 : 0 ∉ decN n.natAbs := fun h => digit_ne_zero (decN_digits _ _ h) rfl
  by_cases h : n < 0
  · refine ⟨decimalText n, [], [45], [], ?_, ?_, by simp, by simp [h], decN_ne_nil _, decN_digits _,
      by simp⟩
    · rw [decimalText_neg n h]
      exact ⟨by simp [h0], Or.inl rfl⟩
    · rw [decimalText_neg n h]; simp
  · refine ⟨decimalText n, [], [], [], ?_, ?_, by simp, by simp [h], decN_ne_nil _, decN_digits _,
      by simp⟩
    · rw [decimalText_nonneg n (by omega)]
      exact ⟨h0, Or.inl rfl⟩
    · rw [decimalText_nonneg n (by omega)]; simp

theorem textNumber_decimal (n : Int) (h1 : -2 ^ 63 ≤ n) (h2 : n < 2 ^ 64) :
    textNumber (decide (n < 0)) (decN n.natAbs) = n := by
  unfold textNumber
  rw [digitsValue_decN, if_neg (by omega)]
  by_cases h : n < 0
  · simp [h]; omega
  · simp [h]; omega

theorem lexiInt_decimal (v : IntVal) : lexiInt v.ty (decimalText v.toInt) = .ok v := by
  unfold lexiInt
  congr 1
  apply IntVal.ext' (convertInt_ty _ _)
  rw [lexiInt_textNumber (intText_decimal v.toInt),
    textNumber_decimal _ v.toInt_bounds.1 v.toInt_bounds.2, wrapInt_self]

/-! ## Enumerations -/

theorem EnumVal.toInt_bounds (v : EnumVal) : -2 ^ 63 ≤ v.toInt ∧ v.toInt < 2 ^ 64 := by
  cases v with
  | int v => exact v.toInt_bounds
  | bool b => cases b <;> simp [EnumVal.toInt]
  | schar c => have := c.le_toInt; have := c.toInt_lt; simp only [EnumVal.toInt]; omega
  | uchar c => have := c.toNat_lt; simp only [EnumVal.toInt]; omega
  | w16 c => have := c.toNat_lt; simp only [EnumVal.toInt]; omega
  | w32 c => have := c.toNat_lt; simp only [EnumVal.toInt]; omega
  | ws32 c => have := c.le_toInt; have := c.toInt_lt; simp only [EnumVal.toInt]; omega

theorem toUInt64_mod (n : Int) (h1 : -2 ^ 63 ≤ n) (h2 : n < 2 ^ 64) :
    ((extractInt (decimalText n)).toNat : Int) = n % 2 ^ 64 := by
  have := strtoull_textNumber (intText_decimal n)
  rw [textNumber_decimal n h1 h2] at this
  have hl := (strtoull (decimalText n)).toNat_lt
  unfold extractInt
  omega

theorem u8_toInt8 (x : UInt8) : x.toInt8.toInt = Int.bmod x.toNat (2 ^ 8) := by
  rw [← Int8.toInt_toBitVec]; show x.toBitVec.toInt = _
  rw [BitVec.toInt_eq_toNat_bmod]; rfl
theorem u16_toInt16 (x : UInt16) : x.toInt16.toInt = Int.bmod x.toNat (2 ^ 16) := by
  rw [← Int16.toInt_toBitVec]; show x.toBitVec.toInt = _
  rw [BitVec.toInt_eq_toNat_bmod]; rfl
theorem u32_toInt32 (x : UInt32) : x.toInt32.toInt = Int.bmod x.toNat (2 ^ 32) := by
  rw [← Int32.toInt_toBitVec]; show x.toBitVec.toInt = _
  rw [BitVec.toInt_eq_toNat_bmod]; rfl

theorem convertEnum_int (d : UInt64) (t : IntTy) : convertEnum d (.int t) = .int (convertInt d t) := by
  cases t <;> simp only [convertEnum, convertInt] <;> congr 1 <;> congr 1
  · apply Int8.toInt_inj.mp
    rw [u8_toInt8, Int64.toInt_toInt8, toInt64_toInt, bmod_bmod_dvd _ 8 (by omega), UInt64.toNat_toUInt8]
    rw [Int.natCast_emod]; exact Int.emod_bmod ..
  · apply Int16.toInt_inj.mp
    rw [u16_toInt16, Int64.toInt_toInt16, toInt64_toInt, bmod_bmod_dvd _ 16 (by omega),
      UInt64.toNat_toUInt16]
    rw [Int.natCast_emod]; exact Int.emod_bmod ..
  · apply Int32.toInt_inj.mp
    rw [u32_toInt32, Int64.toInt_toInt32, toInt64_toInt, bmod_bmod_dvd _ 32 (by omega),
      UInt64.toNat_toUInt32]
    rw [Int.natCast_emod]; exact Int.emod_bmod ..
  · apply Int32.toInt_inj.mp
    rw [u32_toInt32, Int64.toInt_toInt32, toInt64_toInt, bmod_bmod_dvd _ 32 (by omega),
      UInt64.toNat_toUInt32]
    rw [Int.natCast_emod]; exact Int.emod_bmod ..

theorem lexiEnum_decimal (v : EnumVal) : lexiEnum v.ty (decimalText v.toInt) = .ok v := by
  unfold lexiEnum
  congr 1
  cases v with
  | int v =>
    have := lexiInt_decimal v
    unfold lexiInt at this
    simp only [EnumVal.ty, EnumVal.toInt, convertEnum_int]
    rw [Res.ok.injEq] at this
    rw [this]
  | bool b => cases b <;> decide
  | schar c =>
    simp only [EnumVal.ty, EnumVal.toInt, convertEnum]
    congr 1
    have := toUInt64_mod c.toInt (by have := c.le_toInt; omega) (by have := c.toInt_lt; omega)
    apply Int8.toInt_inj.mp
    rw [u8_toInt8, UInt64.toNat_toUInt8]
    have hb := bmod_small _ 7 c.le_toInt c.toInt_lt
    rw [Int.natCast_emod, this]
    have e : c.toInt % 2 ^ 64 % ((2 ^ 8 : Nat) : Int) = c.toInt % ((2 ^ 8 : Nat) : Int) := by omega
    rw [e, Int.emod_bmod]
    exact hb
  | uchar c =>
    simp only [EnumVal.ty, EnumVal.toInt, convertEnum]
    congr 1
    have hlt := c.toNat_lt
    have := toUInt64_mod c.toNat (by omega) (by omega)
    apply UInt8.toNat_inj.mp
    rw [UInt64.toNat_toUInt8]
    omega
  | w16 c =>
    simp only [EnumVal.ty, EnumVal.toInt, convertEnum]
    congr 1
    have hlt := c.toNat_lt
    have := toUInt64_mod c.toNat (by omega) (by omega)
    apply UInt16.toNat_inj.mp
    rw [UInt64.toNat_toUInt16]
    omega
  | w32 c =>
    simp only [EnumVal.ty, EnumVal.toInt, convertEnum]
    congr 1
    have hlt := c.toNat_lt
    have := toUInt64_mod c.toNat (by omega) (by omega)
    apply UInt32.toNat_inj.mp
    rw [UInt64.toNat_toUInt32]
    omega
  | ws32 c =>
    simp only [EnumVal.ty, EnumVal.toInt, convertEnum]
    congr 1
    have := toUInt64_mod c.toInt (by have := c.le_toInt; omega) (by have := c.toInt_lt; omega)
    apply Int32.toInt_inj.mp
    rw [u32_toInt32, UInt64.toNat_toUInt32]
    have hb := bmod_small _ 31 c.le_toInt c.toInt_lt
    rw [Int.natCast_emod, this]
    have e : c.toInt % 2 ^ 64 % ((2 ^ 32 : Nat) : Int) = c.toInt % ((2 ^ 32 : Nat) : Int) := by omega
    rw [e, Int.emod_bmod]
    exact hb

end Lexi
