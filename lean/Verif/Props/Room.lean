import Verif.Props.LastDigit
import Verif.Props.Int

/-!
# Exactly how large a buffer must be: C93
-/

namespace Lexi
open Spec Soft Dtoa

/-! ### Integers -/

theorem build_small (junk : Bytes) (t : Bytes) (h : junk.length ≤ t.length) (f : Cur → Res Cur)
    (hf : ∀ b, f b = b.puts t) : IntObj.build junk f = .ub := by
  unfold IntObj.build
  rw [hf]
  by_cases he : junk.length < t.length
  · rw [Cur.puts_ub _ _ (by simp) (by simpa using he)]; rfl
  · rw [Cur.puts_ok _ _ (by simp; omega)]
    simp only [Res.ok_bind, List.take_zero, List.nil_append, Nat.zero_add]
    rw [Itoa.put_eq_puts, Cur.puts_ub _ _ (by simp) (by simp; omega)]
    rfl

theorem build_iff (junk : Bytes) (t : Bytes) (f : Cur → Res Cur) (hf : ∀ b, f b = b.puts t) :
    IntObj.build junk f =
      if t.length < junk.length then .ok ⟨t ++ 0 :: junk.drop (t.length + 1), 0, t.length⟩ else .ub := by
  split
  · rename_i h; exact build_puts junk t h f hf
  · rename_i h; exact build_small junk t (by omega) f hf

/-- C93, integers.  Formatting in a buffer of any size: with room for the digits and a NUL it writes just those
bytes, with less it leaves the buffer. -/
theorem C93_int_exact (p : Platform) (hp : p.Supported) (junk : Bytes) (v : IntVal) (hv : v.Fits p) :
    formatInt p junk v =
      if (decimalText v.toInt).length < junk.length then
        .ok ⟨decimalText v.toInt ++ 0 :: junk.drop ((decimalText v.toInt).length + 1), 0, (decimalText v.toInt).length⟩
      else .ub := by
  cases v <;> simp only [formatInt] <;> refine build_iff junk _ _ ?_ <;> intro b <;> rename_i x
  · rw [Itoa.i32toa_eq]; simp [IntVal.toInt]
  · rw [Itoa.u32toa_eq, IntVal.toInt, decimalText_natCast]; simp
  · rw [Itoa.i32toa_eq]; simp [IntVal.toInt]
  · rw [Itoa.u32toa_eq, IntVal.toInt, decimalText_natCast]; simp
  · rw [Itoa.i32toa_eq]; simp [IntVal.toInt]
  · rw [Itoa.u32toa_eq, IntVal.toInt, decimalText_natCast]
  · split
    · rw [Itoa.i64toa_eq]; simp [IntVal.toInt]
    · rw [Itoa.i32toa_eq]; simp [IntVal.toInt]
  · split
    · rw [Itoa.u64toa_eq, IntVal.toInt, decimalText_natCast]; simp
    · rw [Itoa.u32toa_eq, IntVal.toInt, decimalText_natCast]
  · rw [if_pos (hp.path hv), Itoa.i64toa_eq]; simp [IntVal.toInt]
  · rw [if_pos (hp.path hv), Itoa.u64toa_eq, IntVal.toInt, decimalText_natCast]
  · rw [Itoa.i64toa_eq]; simp [IntVal.toInt]
  · rw [Itoa.u64toa_eq, IntVal.toInt, decimalText_natCast]

/-- The bytes needed for every value of a type, NUL included. -/
def intRoom : IntTy → Nat
  | .i8 => 5 | .u8 => 4 | .i16 => 7 | .u16 => 6
  | .i32 | .long32 => 12 | .u32 | .ulong32 => 11
  | .long64 | .ulong64 | .i64 | .u64 => 21

/-- A value of the type with the longest text. -/
def longest : IntTy → IntVal
  | .i8 => .i8 Int8.minValue | .u8 => .u8 255 | .i16 => .i16 Int16.minValue | .u16 => .u16 65535
  | .i32 => .i32 Int32.minValue | .u32 => .u32 0xFFFFFFFF
  | .long32 => .long32 Int32.minValue | .ulong32 => .ulong32 0xFFFFFFFF
  | .long64 => .long64 Int64.minValue | .ulong64 => .ulong64 0xFFFFFFFFFFFFFFFF
  | .i64 => .i64 Int64.minValue | .u64 => .u64 0xFFFFFFFFFFFFFFFF

theorem longest_ty (t : IntTy) : (longest t).ty = t := by cases t <;> rfl

theorem longest_length (t : IntTy) : (decimalText (longest t).toInt).length + 1 = intRoom t := by
  cases t <;> decide +kernel

theorem text_le_digits (n : ℤ) (d : Nat) (hd : 0 < d) (h : n.natAbs < 10 ^ d) :
    (decimalText n).length ≤ d + 1 ∧ (0 ≤ n → (decimalText n).length ≤ d) := by
  have := decN_length_le d n.natAbs h hd
  by_cases hn : n < 0
  · rw [decimalText_neg n hn, List.length_cons]
    exact ⟨by omega, fun h => by omega⟩
  · rw [decimalText_nonneg n (by omega)]
    exact ⟨by omega, fun _ => this⟩

theorem text_room (v : IntVal) : (decimalText v.toInt).length < intRoom v.ty := by
  cases v <;> simp only [IntVal.toInt, IntVal.ty, intRoom] <;> rename_i x
  · have h1 := x.le_toInt; have h2 := x.toInt_lt
    have := (text_le_digits x.toInt 3 (by omega) (by omega)).1; omega
  · have h1 := x.toNat_lt
    have := (text_le_digits x.toNat 3 (by omega) (by omega)).2 (by omega); omega
  · have h1 := x.le_toInt; have h2 := x.toInt_lt
    have := (text_le_digits x.toInt 5 (by omega) (by omega)).1; omega
  · have h1 := x.toNat_lt
    have := (text_le_digits x.toNat 5 (by omega) (by omega)).2 (by omega); omega
  · have h1 := x.le_toInt; have h2 := x.toInt_lt
    have := (text_le_digits x.toInt 10 (by omega) (by omega)).1; omega
  · have h1 := x.toNat_lt
    have := (text_le_digits x.toNat 10 (by omega) (by omega)).2 (by omega); omega
  · have h1 := x.le_toInt; have h2 := x.toInt_lt
    have := (text_le_digits x.toInt 10 (by omega) (by omega)).1; omega
  · have h1 := x.toNat_lt
    have := (text_le_digits x.toNat 10 (by omega) (by omega)).2 (by omega); omega
  · have h1 := x.le_toInt; have h2 := x.toInt_lt
    have := (text_le_digits x.toInt 19 (by omega) (by omega)).1; omega
  · have h1 := x.toNat_lt
    have := (text_le_digits x.toNat 20 (by omega) (by omega)).2 (by omega); omega
  · have h1 := x.le_toInt; have h2 := x.toInt_lt
    have := (text_le_digits x.toInt 19 (by omega) (by omega)).1; omega
  · have h1 := x.toNat_lt
    have := (text_le_digits x.toNat 20 (by omega) (by omega)).2 (by omega); omega

/-- C93, sizes for integers.  For a type the platform has, `n` bytes are enough for all its values exactly when
`n` is at least the number in the table; so 21 bytes are enough for all types (the library reserves 22). -/
theorem C93_int_size (p : Platform) (hp : p.Supported) (ty : IntTy) (hty : ∀ v : IntVal, v.ty = ty → v.Fits p) (n : Nat) :
    (∀ v : IntVal, v.ty = ty → ∀ junk : Bytes, junk.length = n → ∃ o, formatInt p junk v = .ok o) ↔ intRoom ty ≤ n := by
  constructor
  · intro h
    by_contra hlt
    obtain ⟨o, ho⟩ := h (longest ty) (longest_ty ty) (List.replicate n 0) (by simp)
    rw [C93_int_exact p hp _ _ (hty _ (longest_ty ty)), if_neg] at ho
    · cases ho
    · have := longest_length ty
      rw [List.length_replicate]; omega
  · rintro h v rfl junk rfl
    rw [C93_int_exact p hp _ _ (hty _ rfl), if_pos (lt_of_lt_of_le (text_room v) h)]
    exact ⟨_, rfl⟩

example : ∀ v : IntVal, v.ty = .long64 → v.Fits lp64 := by intro v hv; cases v <;> first | rfl | cases hv

example : (∃ o, formatInt lp64 (List.replicate 21 170) (.i64 Int64.minValue) = .ok o) ∧
    formatInt lp64 (List.replicate 20 170) (.i64 Int64.minValue) = .ub := by
  constructor
  · exact ⟨⟨ascii "-9223372036854775808" ++ [0], 0, 20⟩, by decide +kernel⟩
  · decide +kernel

/-! ### Floating point -/

theorem prettyText_ge (ds : Bytes) (k : Int) : ds.length ≤ (prettyText ds k).length := by
  unfold prettyText
  simp only
  split
  · simp
  · split
    · simp; omega
    · split
      · simp; omega
      · split
        · simp
        · simp; omega

theorem grisu2_small (env : Env) (u : UInt64) (D : Nat) (k : Int)
    (hg : ∀ M base, base + 17 ≤ M.length → grisu2 env u ⟨M, base⟩ = .ok (at_ M base (decN D), k)) (M : Bytes) (base : Nat)
    (h : base + (decN D).length ≤ M.length) : grisu2 env u ⟨M, base⟩ = .ok (at_ M base (decN D), k) := by
  have hl := hg (M ++ List.replicate 17 0) base (by simp; omega)
  have hroom := grisu2_room (T := List.replicate 17 0) (b := ⟨M, base⟩) hl h
  rcases grisu2_sim (List.replicate 17 0) env u ⟨M, base⟩ with hs | hs
  · exact absurd hs hroom
  · change grisu2 env u ⟨M ++ List.replicate 17 0, base⟩ = _ at hs
    rw [hl] at hs
    cases hr : grisu2 env u ⟨M, base⟩ with
    | ub => exact absurd hr hroom
    | throws => rw [hr] at hs; cases hs
    | ok r =>
      rw [hr] at hs
      have hs : (at_ (M ++ List.replicate 17 0) base (decN D), k) = growK (List.replicate 17 0) r := Res.ok.inj hs
      have e : at_ (M ++ List.replicate 17 0) base (decN D) = grow (List.replicate 17 0) (at_ M base (decN D)) := by
        unfold at_ grow
        rw [List.take_append_of_le_length (by omega), List.drop_append_of_le_length h]
        simp
      rw [e] at hs
      unfold growK grow at hs
      simp only [Prod.mk.injEq, Cur.mk.injEq] at hs
      obtain ⟨⟨h1, h2⟩, h3⟩ := hs
      have h1 := List.append_cancel_right h1
      obtain ⟨⟨m, q⟩, k'⟩ := r
      simp only at h1 h2 h3
      rw [← h1, ← h2, ← h3]

theorem dtoa_small (env : Env) (u : UInt64) (hfin : DFinite u) (hnz : ¬ DZero u) (D : Nat) (k : Int) (hP : Printed u D k)
    (hg : ∀ M base, base + 17 ≤ M.length → grisu2 env (dAbs u) ⟨M, base⟩ = .ok (at_ M base (decN D), k)) (M : Bytes)
    (h : (signed (dNeg u) (prettyText (decN D) k)).length < M.length) :
    dtoa env u ⟨M, 0⟩ = .ok ⟨signed (dNeg u) (prettyText (decN D) k) ++
      0 :: M.drop ((signed (dNeg u) (prettyText (decN D) k)).length + 1), (signed (dNeg u) (prettyText (decN D) k)).length⟩ := by
  have hkk := hP.kk hfin hnz
  have hge := prettyText_ge (decN D) k
  rw [dtoa_grisu2 env u hnz M (by omega)]
  unfold digitStart signed at *
  by_cases hn : dNeg u
  · simp only [hn, if_true, List.length_append, List.length_singleton] at h ⊢
    have hpos : (at_ M 0 [45]).pos = 1 := by simp [at_]
    have hml : (at_ M 0 [45]).mem.length = M.length := by simp [at_]; omega
    have e : at_ M 0 [45] = ⟨(at_ M 0 [45]).mem, 1⟩ := by rw [← hpos]
    rw [e, grisu2_small env (dAbs u) D k hg _ 1 (by rw [hml]; omega), Res.ok_bind]
    have hsz : (at_ (at_ M 0 [45]).mem 1 (decN D)).pos - 1 = (decN D).length := by simp [at_]
    dsimp only
    rw [hsz, prettify_spec _ 1 (decN D) k (decN_ne_nil _) (by rw [hml]; omega) (by rw [hml]; omega) (by omega) (by omega)]
    have h2 := at_prepend M 0 [45] (prettyText (decN D) k ++ [0]) (by simp; omega)
    simp only [List.length_singleton, Nat.zero_add] at h2
    rw [h2]
    congr 2
    simp [at_]
    congr 1
    omega
  · simp only [hn, if_false, List.nil_append] at h ⊢
    rw [grisu2_small env (dAbs u) D k hg _ 0 (by omega), Res.ok_bind]
    have hsz : (at_ M 0 (decN D)).pos - 0 = (decN D).length := by simp [at_]
    dsimp only
    rw [hsz, prettify_spec _ 0 (decN D) k (decN_ne_nil _) (by omega) (by omega) (by omega) (by omega)]
    congr 2
    · simp [at_]
    · simp

/-- When the text and its NUL do not fit, the buffer is left: a write that stayed inside would put no NUL there. -/
theorem dtoa_ub (env : Env) (u : UInt64) (t : Bytes) (ht : t.length < 30)
    (h : ∀ M : Bytes, M.length = 30 → dtoa env u ⟨M, 0⟩ = .ok ⟨t ++ 0 :: M.drop (t.length + 1), t.length⟩)
    (M : Bytes) (hM : M.length ≤ t.length) : dtoa env u ⟨M, 0⟩ = .ub := by
  have hl := h (M ++ List.replicate (30 - M.length) 1) (by simp; omega)
  rcases dtoa_sim (List.replicate (30 - M.length) 1) env u ⟨M, 0⟩ with hs | hs
  · exact hs
  · exfalso
    change dtoa env u ⟨M ++ List.replicate (30 - M.length) 1, 0⟩ = _ at hs
    rw [hl] at hs
    cases hr : dtoa env u ⟨M, 0⟩ with
    | ub => rw [hr] at hs; cases hs
    | throws => rw [hr] at hs; cases hs
    | ok r =>
      rw [hr] at hs
      have hs := congrArg Cur.mem (Res.ok.inj hs)
      dsimp only [grow] at hs
      have hlen := congrArg List.length hs
      simp only [List.length_append, List.length_cons, List.length_drop, List.length_replicate] at hlen
      have hi := congrArg (·[t.length]?) hs
      simp only [List.getElem?_append_right (le_refl _), Nat.sub_self, List.getElem?_cons_zero] at hi
      rw [List.getElem?_append_right (by omega), List.getElem?_replicate] at hi
      split at hi
      · cases hi
      · cases hi

theorem formatLd_of_dtoa (L : Literals) (env : Env) (junk : Bytes) (x : LVal) (hf : DFinite x.toDouble) :
    formatLd L env junk x = (dtoa env x.toDouble ⟨junk, 0⟩ >>= fun c => .ok ⟨c.mem, 0, c.pos⟩) := by
  unfold formatLd
  rw [(isFinite_iff _).mpr hf]
  rfl

theorem formatLd_iff (L : Literals) (env : Env) (x : LVal) (hf : DFinite x.toDouble) (t : Bytes) (ht : t.length < 30)
    (h : ∀ M : Bytes, t.length < M.length →
      dtoa env x.toDouble ⟨M, 0⟩ = .ok ⟨t ++ 0 :: M.drop (t.length + 1), t.length⟩) (junk : Bytes) :
    formatLd L env junk x =
      if t.length < junk.length then .ok ⟨t ++ 0 :: junk.drop (t.length + 1), 0, t.length⟩ else .ub := by
  rw [formatLd_of_dtoa L env junk x hf]
  split
  · rename_i hl; rw [h junk hl]; rfl
  · rw [dtoa_ub env x.toDouble t ht (fun M hM => h M (by omega)) junk (by omega)]; rfl

/-- Literals without a NUL inside, as string macros are. -/
def Literals.NulFree (L : Literals) : Prop := 0 ∉ L.nan ∧ 0 ∉ L.infinity ∧ 0 ∉ L.negInfinity

theorem lit_iff (junk lit : Bytes) (h0 : 0 ∉ lit) :
    (strncpyLit junk lit >>= fun b => .ok (⟨b, 0, lit.length⟩ : FloatObj)) =
      if lit.length < junk.length then .ok ⟨lit ++ 0 :: junk.drop (lit.length + 1), 0, lit.length⟩ else .ub := by
  split
  · exact stringLit junk lit h0 (by omega)
  · rw [strncpyLit_ub junk lit (by omega)]; rfl

/-- C93, floating point.  The text does not depend on the buffer; with room for it and a NUL exactly those bytes
are written, with less the buffer is left. -/
theorem C93_float_exact (env : Env) (henv : EnvOk env) (L : Literals) (hL : L.NulFree) (x : LVal) :
    ∃ t : Bytes, ∀ junk, formatLd L env junk x =
      if t.length < junk.length then .ok ⟨t ++ 0 :: junk.drop (t.length + 1), 0, t.length⟩ else .ub := by
  rcases class_cases x.toDouble with hf | hi | hn
  · by_cases hz : DZero x.toDouble
    · refine ⟨[48, 46, 48], formatLd_iff L env x hf _ (by decide) fun M hM => ?_⟩
      rw [dtoa_zero env _ hz M 0 (by simp at hM; omega)]
      simp [at_]
    · obtain ⟨D, k, hP, hg, -⟩ := formatLd_finite' env henv x.toDouble hf hz
      refine ⟨_, formatLd_iff L env x hf _ ?_ (dtoa_small env x.toDouble hf hz D k hP hg)⟩
      have := hP.text_length hf hz
      unfold signed
      split
      · simp only [List.cons_append, List.nil_append, List.length_cons]; omega
      · simp only [List.nil_append]; omega
  · refine ⟨if dNeg x.toDouble then L.negInfinity else L.infinity, fun junk => ?_⟩
    rw [formatLd_inf env x hi]
    refine lit_iff junk _ ?_
    split
    · exact hL.2.2
    · exact hL.2.1
  · refine ⟨L.nan, fun junk => ?_⟩
    rw [formatLd_nan env x hn]
    exact lit_iff junk _ hL.1

theorem default_nulFree : Literals.default.NulFree := by unfold Literals.NulFree; decide

/-- Any number of 25 bytes on one platform needs 26 on all. -/
theorem needs_26 (env : Env) (henv : EnvOk env) (x : LVal) (t : Bytes) (ht : t.length = 25)
    (h : stringLongDouble .default sampleEnv (List.replicate 30 0) x = .ok t) (junk : Bytes) (hj : junk.length < 26) :
    formatLd .default env junk x = .ub := by
  obtain ⟨t', h', hl⟩ := C92_length sampleEnv env sampleEnv_ok henv .default _ (by decide) x t h
  obtain ⟨s, hs⟩ := C93_float_exact env henv .default default_nulFree x
  have e : s = t' := by
    unfold stringLongDouble at h'
    rw [hs] at h'
    split at h'
    · exact Res.ok.inj ((readN_prefix s _).symm.trans h')
    · cases h'
  rw [hs, if_neg (by rw [e, hl, ht]; omega)]

/-- C93, sizes for floating point.  With the default literals, on every platform, `n` bytes are enough for all
numbers of a floating type exactly when `n` is at least 26, whichever of the three types (the library reserves
30). -/
theorem C93_float_size (env : Env) (henv : EnvOk env) (n : Nat) :
    ((∀ (u : UInt32) (junk : Bytes), junk.length = n → ∃ o, formatFloat .default env junk u = .ok o) ↔ 26 ≤ n) ∧
    ((∀ (u : UInt64) (junk : Bytes), junk.length = n → ∃ o, formatDouble .default env junk u = .ok o) ↔ 26 ≤ n) ∧
    ((∀ (x : LVal) (junk : Bytes), junk.length = n → ∃ o, formatLd .default env junk x = .ok o) ↔ 26 ≤ n) := by
  have hi : 26 ≤ n → ∀ (x : LVal) (junk : Bytes), junk.length = n → ∃ o, formatLd .default env junk x = .ok o := by
    intro hn x junk hj
    obtain ⟨t, h⟩ := C93_float_exact env henv .default default_nulFree x
    obtain ⟨s, hs, hs'⟩ := formatLd_any env henv x
    have e : t.length = s.length := by
      have h1 := hs' (List.replicate 30 0) rfl
      rw [h] at h1
      split at h1
      · exact congrArg FloatObj.last (Res.ok.inj h1)
      · cases h1
    rw [h, if_pos (by omega)]
    exact ⟨_, rfl⟩
  have lo : ∀ (x : LVal) (t : Bytes), t.length = 25 →
      stringLongDouble .default sampleEnv (List.replicate 30 0) x = .ok t →
      (∀ junk : Bytes, junk.length = n → ∃ o, formatLd .default env junk x = .ok o) → 26 ≤ n := by
    intro x t ht hx h
    by_contra hn
    obtain ⟨o, ho⟩ := h (List.replicate n 0) (by simp)
    rw [needs_26 env henv x t ht hx _ (by rw [List.length_replicate]; omega)] at ho
    cases ho
  have wd : stringLongDouble .default sampleEnv (List.replicate 30 0) (LVal.ofDouble 0xBEB81A8D6F8DD98E)
      = .ok (ascii "-0.0000014366937064171057") := by decide +kernel
  have wf : stringLongDouble .default sampleEnv (List.replicate 30 0) (LVal.ofFloat 0xB58637BE)
      = .ok (ascii "-0.0000010000001111620805") := by decide +kernel
  have l1 : (ascii "-0.0000014366937064171057").length = 25 := by decide +kernel
  have l2 : (ascii "-0.0000010000001111620805").length = 25 := by decide +kernel
  exact ⟨⟨fun h => lo _ _ l2 wf (h 0xB58637BE), fun h u => hi h _⟩,
    ⟨fun h => lo _ _ l1 wd (h 0xBEB81A8D6F8DD98E), fun h u => hi h _⟩,
    ⟨fun h => lo _ _ l1 wd (h _), hi⟩⟩

example : (∃ o, formatDouble .default sampleEnv (List.replicate 26 170) 0xBEB81A8D6F8DD98E = .ok o) ∧
    formatDouble .default sampleEnv (List.replicate 25 170) 0xBEB81A8D6F8DD98E = .ub := by
  constructor
  · exact ⟨⟨ascii "-0.0000014366937064171057" ++ [0], 0, 25⟩, by decide +kernel⟩
  · decide +kernel

end Lexi
