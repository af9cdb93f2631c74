import Verif.Props.Float
import Verif.Props.FloatRead
import Verif.Props.Scalar
import Verif.Props.Str

/-!
# The repository's own tests, run on the model

Tests of the model, not proofs about it: every expectation of /repo/test/*.cpp holds of the definitions in `Verif.Model`.
The buffers start out filled with 0xAA.
-/

namespace Lexi.Tests
open Lexi Spec

/-- x86-64 Linux, signed `char`. -/
def lp64 : Platform := ⟨false, false, true, true, true⟩
def junk (n : Nat) : Bytes := List.replicate n 0xAA
def text (s : String) : Res Bytes := .ok (ascii s)

/-! ## /repo/test/bool.cpp:35-46 -/
example : (stringBool .default (junk 6) true) = text "true" := by decide +kernel
example : (stringBool .default (junk 6) false) = text "false" := by decide +kernel
example : (formatBool .default (junk 6) false >>= BoolObj.escape) = text "false" := by decide +kernel
example : (formatBool .default (junk 6) false >>= BoolObj.jsonify) = text "false" := by decide +kernel

/-! ## /repo/test/char.cpp:27-40 -/
example : [0, 8, 12, 97].map (stringChar (junk 2)) = [.ok [0], .ok [8], .ok [12], text "a"] := by decide +kernel
example : [0, 8, 12, 97].map (fun c => formatChar (junk 2) c >>= CharObj.escape true) =
    [.ok [92, 0], .ok [92, 8], .ok [92, 12], text "a"] := by decide +kernel
example : [0, 8, 12, 97].map (fun c => formatChar (junk 2) c >>= CharObj.jsonify true) =
    [text "\"\\u0000\"", text "\"\\b\"", text "\"\\f\"", text "\"a\""] := by decide +kernel

/-! ## /repo/test/enum.cpp:29 -/
example : (formatEnum lp64 (junk 22) (.int (.u32 0)) >>= IntObj.toStdString) = text "0" := by decide +kernel

/-! ## /repo/test/float.cpp:37-60 -/
example : stringFloat .default sampleEnv (junk 30) 0 = text "0.0" := by decide +kernel
example : stringDouble .default sampleEnv (junk 30) 0 = text "0.0" := by decide +kernel
example : stringLongDouble .default sampleEnv (junk 30) (.fin false 0) = text "0.0" := by decide +kernel
example : (formatLd .default sampleEnv (junk 30) (.fin false 0) >>= FloatObj.escape) = text "0.0" := by decide +kernel
example : (formatLd .default sampleEnv (junk 30) (.fin false 0) >>= FloatObj.jsonify) = text "0.0" := by decide +kernel

def doubles : List (UInt64 × String) := [
  (0x3FF0000000000000, "1.0"), (0xBFF0000000000000, "-1.0"), (0x3FF3C083126E978D, "1.2345"),
  (0x3FF3C0CA2A5B1D5D, "1.2345678"), (0x3FBF9ADD37469512, "0.123456789012"), (0x4132D687CCCCCCCD, "1234567.8"),
  (0xC053D97477742D51, "-79.39773355813419"), (0x3EB0C6F7A0B5ED8D, "0.000001"), (0x3E7AD7F29ABCAF48, "1e-7"),
  (0x46293E5939A08CEA, "1e30"), (0x462F2A353F474508, "1.234567890123456e30"), (0x0000000000000001, "5e-324"),
  (0x000FFFFFFFFFFFFF, "2.225073858507201e-308"), (0x0010000000000000, "2.2250738585072014e-308"),
  (0x7FEFFFFFFFFFFFFF, "1.7976931348623157e308"), (0x7FF8000000000000, "NaN"), (0x7FF0000000000000, "Infinity"),
  (0xFFF0000000000000, "-Infinity")]

example : ∀ t ∈ doubles, stringDouble .default sampleEnv (junk 30) t.1 = text t.2 := by decide +kernel
/-- The bit patterns are those of the literals in the tests. -/
example : ∀ t ∈ doubles, lexiDouble .binary64 (ascii t.2) = t.1 := by decide +kernel

/-! ## /repo/test/int.cpp:36-41 -/
example : [.u16 1, .u32 1, .ulong64 1, .u64 1].map (fun v => formatInt lp64 (junk 22) v >>= IntObj.escape) =
    List.replicate 4 (text "1") := by decide +kernel
example : (formatInt lp64 (junk 22) (.u64 1) >>= IntObj.jsonify) = text "1" := by decide +kernel

/-! ## /repo/test/null.cpp:27-32 -/
example : stringNull .default (junk 5) = text "null" := by decide +kernel
example : (formatNull .default (junk 5) >>= NullObj.jsonify) = text "null" := by decide +kernel

/-! ## /repo/test/lexi.cpp:39-80 -/
example : stringEnum lp64 (junk 22) (.int (.u32 0)) = text "0" := by decide +kernel
example : stringChar (junk 2) 65 = text "A" := by decide +kernel
example : stringInt lp64 (junk 22) (.i32 1) = text "1" := by decide +kernel
example : lexiStr (.cstr (ascii "1.0" ++ [0])) = text "1.0" := by decide +kernel
example : lexiStr (.stdString (ascii "1.0")) = text "1.0" := by decide +kernel
example : jsonifyStr true [8] = text "\"\\b\"" := by decide +kernel
example : lexiNull .default (ascii "null") = .ok () := by decide +kernel
example : lexiBool .default (ascii "true") = .ok true := by decide +kernel
example : lexiBool .default (ascii "false") = .ok false := by decide +kernel
example : lexiBool .default (ascii "null") = .throws := by decide +kernel
example : lexiChar (ascii "f") = .ok 102 := by decide +kernel
example : lexiInt .u8 (ascii "102") = .ok (.u8 102) := by decide +kernel
example : lexiChar [] = .throws := by decide +kernel
example : lexiInt .u8 [] = .ok (.u8 0) := by decide +kernel
example : [.i16, .i32, .long64, .i64].map (fun t => lexiInt t (ascii "-1")) =
    [.ok (.i16 (-1)), .ok (.i32 (-1)), .ok (.long64 (-1)), .ok (.i64 (-1))] := by decide +kernel
example : [.u16, .u32, .ulong64, .u64].map (fun t => lexiInt t (ascii "5")) =
    [.ok (.u16 5), .ok (.u32 5), .ok (.ulong64 5), .ok (.u64 5)] := by decide +kernel
example : lexiEnum (.int .u32) (ascii "0") = .ok (.int (.u32 0)) := by decide +kernel

end Lexi.Tests
