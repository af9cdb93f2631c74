# Formal model of Alexhuszagh/lexi in Lean 4 — design

## 1. What is modelled, and how

Bytes are `UInt8`, `std::string` is `List UInt8`, C++ fixed-width integers are Lean's
`UInt8..UInt64` / `Int8..Int64` (wrap-around arithmetic).  A `double` is its 64-bit pattern (`UInt64`).
Every operation that C++ leaves undefined, or that throws, is a distinct outcome:

    inductive Res (α) | ok (a : α) | throws | ub

Model modules (`lean/Verif/Model/*`), one per source file; each definition cites file and lines:

| module | source |
|---|---|
| `Res`       | outcome type, byte literals, fixed-size buffers with a write cursor |
| `Itoa`      | src/detail/itoa.cpp |
| `Str`       | src/detail/string.cpp |
| `Scalar`    | src/bool.cpp, src/null.cpp, src/char.cpp, include/lexi/detail/define.hpp |
| `IntFmt`    | src/int.cpp, include/lexi/int.hpp, enum.hpp, detail/fmt.hpp (FormatInt, ExtractInt, FormatEnum, ExtractEnum) |
| `Ieee`      | src/detail/ieee754.cpp |
| `DiyFp`     | src/detail/diyfp.cpp (all compiler variants) |
| `Soft`      | round-to-nearest-even arithmetic for binary formats (models the FPU, not repo code) |
| `Dtoa`      | src/detail/dtoa.cpp |
| `Work`      | src/detail/dtoa.cpp and diyfp.cpp again, with ghost counters for the turns of the loops |
| `FloatFmt`  | src/float.cpp |
| `BigInt`    | src/detail/bigint.cpp |
| `BigThrow`  | the operations of src/detail/bigint.cpp that can throw, keeping the object as it is at the throw |
| `Repair`    | NOT repository code: `operator<<=` and `difference` of src/detail/bigint.cpp with the wrong lines changed, and the functions calling the shift; used by C102 only |
| `CopyRepair` | NOT repository code: copy operations that point into the new object, for `FormatInt`, `FormatEnum`, `FormatFloat`; used by C104 only |
| `ReadRepair` | NOT repository code: `ExtractFloat::operator double` and `operator float` by `strtod` and `strtof`; used by C105 and C108 only |
| `Alloc` | `escape` and `jsonify` again, with the capacity, the allocations and the exceptions of `std::string`; what the library decides is a parameter (C109) |
| `AllocApi` | `string`, `escape` and `jsonify` of all argument types in the same way (C113) |
| `AllocRead` | `lexi<T>` of all types from strings and pointers in the same way, with the exceptions thrown (C115) |
| `Strtod`    | src/detail/strtod.cpp (live, non-commented code), src/detail/pow.cpp |
| `Modes`     | rounding in a direction (models the FPU), src/float.cpp and dtoa.cpp:196 after `fesetround` |
| `Errno`     | `errno` after `strtoull` and `strtold` (external; what the standard leaves open is a parameter), src/int.cpp:179-183, src/float.cpp:137-141 |
| `Cycle`     | `lexi<T>(string(x))` and `string(lexi<double>(s))` repeated, on one machine or several |
| `Objects`   | lifetime/copy semantics of the formatter classes |
| `Threads` | formatter objects used by several threads: schedules, accesses, data races (C110) |
| `Dispatch`  | include/lexi/detail/type.hpp, include/lexi/lexi.hpp (which overloads a type enables) |
| `Overload`  | include/lexi/lexi.hpp:144-175 and the class headers: ranking of conversions, which function, constructor or conversion is selected |
| `Api`       | include/lexi/lexi.hpp: `string`, `escape`, `jsonify` as one function over all argument types |
| `ReadApi`   | include/lexi/lexi.hpp:83-157: `lexi<T>` over all types; `Format()(x).c_str()` as memory |
| `Locale`    | src/float.cpp:140 where `strtold` runs in a locale whose decimal point is another byte |

Specifications (`lean/Verif/Spec/*`) do not import the model:

| module | contents |
|---|---|
| `Decimal`, `IntText` | decimal numerals and their values, machine integer ranges, the longest numeral at the start of a text |
| `Escape`, `Utf8` | backslash escaping and its inverse; UTF-8 (RFC 3629) |
| `JsonString`, `JsonNumber`, `Json` | RFC 8259 string literals, numbers with their rational value, a reader for whole JSON texts |
| `CutNumber` | what is left of a JSON number of which only the first bytes are there |
| `Words` | what C reads as NaN and as the infinities |
| `Double`, `Single`, `Nearest`, `Formats`, `Directed` | exact rational value of a bit pattern, nearest-even, faithful, correct rounding to any binary format; rounding up, down, toward zero |
| `HalfUlp` | the half-way test of a decimal reader |
| `FloatSubject`, `Trunc` | what C's `strtold` accepts; truncation toward zero |
| `Shell`, `Script` | words of a POSIX shell command line, literal part of a regular expression; string literals of JavaScript |
| `Records`, `Notations` | records of fields with a separator; numbers and words of C, YAML 1.1 and 1.2, TOML, XML Schema and JSON5 |
| `BigNat`, `BigThrow` | naturals in 64-bit words; the steps of a multiplication by a power of five, a caller's history |
| `History`, `Types` | histories of formatter objects; the C++ types the library is for |
| `Threads` | what a thread does, which objects it may touch, interleavings |
| `Amount` | decimals as one writes them: places without trailing zeros, at least one |
| `Meaning`, `SameDoc`, `Order` | what a text stands for; when two JSON documents are the same; values to compare, the byte order of texts |
| `Interchange`, `Sql`, `Pattern`, `Literal`, `Xml`, `Nested`, `CutString`, `Case` | CSV records and query strings; string literals of SQL dialects; file name and `LIKE` patterns; string literals of programming languages; attribute values and character data; several layers of escaping and of JSON; the backslashes at the end of a text; small and capital letters |

Property theorems are in `lean/Verif/Props/*` (the `Cnn_` theorems listed in MANIFEST.json), helper lemmas in
`lean/Verif/Proofs/*`. `lean/Verif/Tests/Repo.lean` evaluates the assertions of the repository's own test suite on
the model in the kernel; these are tests of the model, not claims.

Simplifications are stated at the definitions. The general ones:

* Buffers start with arbitrary contents (`junk`), quantified universally. A write outside is `ub`.
* Loops without a structural bound carry fuel; running out is `ub`, so a theorem with result `ok` shows termination.
* Pointers into an object are offsets in its buffer; only `Objects` models pointers between objects.
* `dtoa` reads behind the end of its `POWER10` table (see section 5). The word found there is a parameter `env.oob`;
  it may be any 64-bit word, which includes the 32-bit words that can really be there (and the entries of a longer table, C103).
  Theorems assume `EnvOk env`: such a read returns some word. `strictEnv` makes it undefined; C26 uses that.
* The scaling exponent of the cached power is computed in floating point. `env.dk` is the value of that expression;
  `EnvOk` requires it within 2^-11 of the exact value, which is proved for `double` and fused evaluation, and under
  which C33 proves that the index does not depend on it.

## 2. External behaviour assumed (trusted, outside the repo)

* `strtoull` base 10 follows C11 7.22.1.4 in the "C" locale (ERANGE saturates to ULLONG_MAX, a '-' negates modulo 2^64).
* `strtold` correctly rounds (nearest, ties to even) into the platform's long double; long double → double/float
  conversions round to nearest-even.  The long double format is a parameter (precision p >= 53).  C89 covers the other
  rounding modes: there `strtold` and the conversions round in the current direction (glibc, musl).
* conversion of out-of-range integers to a narrower signed type is modulo 2^n (implementation-defined before C++20; true of the supported compilers).
* `BitwiseDouble` reads a double through a union with a 64-bit integer; this is the bit pattern (true of the supported compilers).
* IEEE-754 binary64 arithmetic, round-to-nearest-even, evaluated in `double` (`FLT_EVAL_METHOD == 0`) in
  strtod.cpp; C86 also covers `fast` evaluated in a wider format and rounded by assignment and return.
* A formatter returned by value is constructed in place (C++17, or copy elision in C++14). C57 says what happens otherwise.
* `std::string` operations, `strncpy`, `memmove`, `memcpy`, `memset`, `memcmp` per the C/C++ standards.

## 3. Plan per property

| id | modelled | proof method |
|---|---|---|
| C01 | u32toa..i64toa through a bounded write cursor, ten constructors | table lemma for the 200-byte digit table, case split on the unrolled ranges, omega; equality with `toString` |
| C02 | FormatInt + strtoull model + conversion operators | C01 and a parse-of-print lemma (induction on the numeral) |
| C03 | buffer of 22 arbitrary bytes, out-of-range write = `ub` | length bound of the numeral, cursor lemma |
| C04 | object record (buffer, first, last) | by construction lemmas for each class |
| C05 | all overloads | injectivity of canonical numerals |
| C06 | u64toa | induction on numerals |
| C07–C09 | strtoull model, all conversion operators | specification by prefix decomposition, induction on the string |
| C10–C12 | constructors/extractors with `throws` | case analysis |
| C13–C19 | escape / jsonify folds, signedness parameter | induction on the string; JSON string reader as independent spec |
| C20 | jsonify of all scalar classes | JSON number grammar recogniser as spec |
| C21 | dtoa: grisu2, prettify … on bit patterns | Grisu2 error analysis over ℚ: table accuracy by kernel evaluation over the 87 entries, digit-loop invariants, uniqueness of the nearest double |
| C22–C24 | ExtractFloat over a parametric long double | C21 plus monotonicity of rounding; C23 is false for x87: concrete witness, partial theorem for even significands and one-ulp bound |
| C25 | buffer-level dtoa | digit count bound 10^(n-2) < 2^53, prettify at memory level |
| C26 | table reads checked | false: `POWER10[-kappa]` is read out of bounds for most doubles (witness); partial: the only undefined read is that one, and for every word it might return the guarantees C21/C25/C27 still hold |
| C27–C32 | prettify text, value | decomposition of prettify result |
| C33 | floating computation of the index through `Soft` | kernel evaluation over the complete exponent range plus distance-from-integer lemma |
| C34 | table | kernel evaluation over the complete table |
| C35 | all `#if` variants | Nat arithmetic |
| C36 | predicates on bit patterns | bit-mask lemmas |
| C37–C43 | BigInteger with 416-word memory and stale words | value function, loop invariants; C39, C41, C43 are false: witnesses + partial theorems |
| C44–C45 | store of objects with pointers into objects | invariant over histories; C45 false: witness + partial theorem |
| C46 | type universe and traits | exhaustive case analysis on an inductive type universe |
| C47–C49 | combination of the above | |
| C50 | fast path through `Soft` | exactness of small powers, nearest-rounding spec |
| C51 | constructors parametric in the literal strings | list lemmas |
| C52, C53, C56 | dtoa | how far Grisu2's safe interval reaches (0.49 ulp); ten-digit values finish before the out-of-range read |
| C54, C55, C58, C59, C62 | ExtractFloat over a parametric long double | rounding to nearest as a monotone map, double rounding |
| C57 | return by value with and without elision | instance of the object histories |
| C60, C65, C66 | formatting as one type, reading as another | digits of whole doubles, prefix of a JSON number, rounding of integers |
| C61 | strtold model | complete grammar of C11 7.22.1.3 as specification, every byte string |
| C63, C64 | long double | conversion through double; correct rounding to any format |
| C67 | fastPath, StrtodNormalPrecision | error of one rounding, table entries within half an ulp |
| C68 | escape, jsonify | maps that only touch ASCII bytes commute with UTF-8 decoding |
| C69, C70 | `Api` | induction over documents against the JSON reader |
| C71 | grisuRound, generateDigits | loop invariant: the remainder is as near as any within delta |
| C72, C73 | `ReadApi` | case analysis over the types on top of C02, C10–C12, C22–C24, C47; bytes behind the terminator arbitrary |
| C75, C76 | `Overload` | conversion ranks of C++14 as data; case analysis over the type universe, table lemma over the implementation choices |
| C77 | ExtractFloat over a parametric long double | exact condition for C23: the text lies on a midpoint of double after the first rounding, and the tie goes to the neighbour |
| C78 | `ReadApi` | every type on every text: total, and which texts are misread silently |
| C79 | `Locale` | the printed text is cut at its point; induction over the digits, whole numbers survive |
| C84 | grisu2 under `strictEnv` | the condition of C26 for integers, short decimals and whole ranges: the cached power depends on the magnitude only |
| C85 | `strtold` in a wider format, then the conversion | one rounding step lemma (`Soft.twice`): two roundings differ from one exactly at a middle; a divisibility argument for decimals of few places, a witness family for the limit |
| C86 | `fastIn` (strtod.cpp with excess precision) | the same lemma applied to the product or quotient |
| C87 | `fast` on every double | classes of doubles; the middle below `2^53`; one or two applications of nearest rounding |
| C88 | `normalize`, `normalizeBoundary` on every significand | loop invariant on the low 53 (54) bits |
| C89 | `Modes` | floor and ceiling on nested grids compose, so the second rounding is exact; `dk` in a mode stays within the error C35 allows |
| C90 | `Errno` | the scanner of the value theorems decides `errno`; thresholds of `long double` against those of the target; the text of a double lies nearer to it than to zero or the least normal |
| C91 | `Cycle` | one cycle keeps the value or changes it to one that every machine keeps (even significands survive); induction over the list of machines |
| C92 | `LastDigit` | two runs with different words behind the table make the same digits up to the last rounding, which changes only the byte before the cursor |
| C93 | `Room` | frame rule: a run that stays inside a buffer is the same in a longer one (`Frame`); the NUL at the end of the text shows a shorter buffer is left; the witness of 25 bytes holds everywhere by C92 |
| C94 | `Shell` | induction on the text: each escaped byte feeds exactly itself (newline: nothing) to the word being read; complete byte tables; command lines by induction on the arguments |
| C95 | `Script` | induction on the text with a complete byte table; bytes outside ASCII are copied, and `<` does not occur inside an escape, so occurrences correspond |
| C96 | `Records` | an escaped field is passed over by the splitter whatever follows it; induction on the list of fields; round trip of each field by C73 |
| C97 | `Notations` | the parse tree of the printed number is rearranged into each grammar; non-membership by the bytes a grammar allows |
| C98 | `Work` | erasure of the counters by induction over the fuel; the cursor advances once per pass; a correction uses up `ten_kappa` of the room below `delta`, which is less than ten of them |
| C99 | `withinHalfULP`, `min3` | the interval of the digits printed (C52) |
| C100 | `BigThrow` | the loops of C38 with a weaker invariant that survives exceptions; induction over histories |
| C83 | `Locale` | the same for a decimal point of several bytes: the printed text lacks its first byte, so only that byte matters |
| C82 | ExtractEnum, fpos | instances of C07 for every underlying type |
| C80, C81 | `Narrow` | no number of 25 bits lies strictly inside the rounding interval of a double, so a second rounding to `float` cannot cross a float boundary, except at ties |
| C74 | BigInteger | exact condition for C37, C39, C42 as equivalences; induction over histories |
| C101 | FormatInt, ExtractInt | value of a run of digits under `take`, `drop` and append; C07 for the texts that result |
| C102 | repaired BigInteger | shift with the pushed-out word counted before the check, subtraction with the borrow taken from the operands: exact on words, then C37's and C42's inductions again |
| C103 | repaired POWER10 | the words behind the table become the powers 10^10 to 10^18; the loop invariant of C71 then holds in the second half as well |
| C104 | repaired copies | simulation as for C45, with the invariant that every live object points into itself |
| C105 | repaired ExtractFloat | one rounding: the interval argument of C22 and C24 and the nearest theorems for both formats |
| C106 | ExtractFloat, FormatFloat | a structural cut of the parse tree; the scanner on a number followed by a lone point or an exponent without digits; value of a run of digits under `take` |
| C107 | literals | C51 for the texts, C61 for what reads as NaN or infinite; the reader of `Spec.Json` refuses every text whose value starts like a NaN |
| C108 | repairs together | C103, C105 and C107 case by case over the argument types; C35 for two platforms, C19 for the sign of char |
| C109 | memory | the loops append pieces (`appendAll`); an inductive relation `Grows` for the capacities asked for; three doublings from 2n+1 exceed 6n |
| C110 | `Threads` | simulation of all threads by one memory per thread that agrees on what the thread may see; pointers stay inside the owner's objects |
| C111 | `Amount` | number and end of interval, scaled by 1000 and a power of two, are integers that differ modulo 4 or 16, so the number is inside the part of the interval where the algorithm is exact; then the text from the digits |
| C112 | `Exact` | the printed digits are a multiple of the last place of the exact expansion and closer to it than that place; for other floats 5^12 and 2^g are coprime |
| C113 | `AllocApi` | strings inside the object never grow; a computation after other requests is the same computation on a shifted allocator; lengths of texts from C93 |
| C114 | `Meaning` | texts of numbers have only bytes of numbers, with a point or exponent for doubles; the double is strictly nearest its decimal, so one decimal cannot show two |
| C115 | `AllocRead` | reading is total (C78); the temporary string is the constructed string of C113; round trip from C73 |
| C116 | `SameDoc` | every leaf text ends before a comma or bracket or with its closing quote; induction over both documents at once with what follows them |
| C117 | `Interchange` | a CSV reader keeps all backslashes and loses at least one quote if there is one, so counts decide; form decoding never removes backslashes or quotes and shortens at every percent sign |
| C118 | `Order` | every text is closer to its own double than to any other (C114), so the texts of two doubles lie on either side of the middle; digits compare by induction as fractions |
| C119 | `Sql` | readers of literals as recursive functions; `escape` and `jsonify` byte by byte through them, and the first quote of the string for what gets out |
| C120 | `Pattern` | a pattern is parsed to items, which are all literal; MySQL's literals (C119) keep the backslash of `\%` and `\_` and only these |
| C121 | `Literal` | one reader with the rules of each language; the text of each byte is read as a unit, complete byte tables say as what, induction on the string; Java's two passes are composed |
| C122 | `Xml` | a reference makes the value shorter than the text, so a text that reads as itself has none; induction on the text; the alphabet of numbers from C94 |
| C123 | `Nested` | each byte turns into a block of backslashes and itself, induction on the layers; for `jsonify` the numbers of quotes, of controls and of bytes of one layer are linear in those before, induction on the layers |
| C124 | `CutString` | a prefix of a text made byte by byte ends between two bytes or within the text of one; the backslashes at the end of an escaped text are twice those of the string; a quote behind a part of an escape never ends a literal |
| C125 | strings themselves | C124 says where an occurrence can begin; one that begins at the second backslash of an escaped backslash is shown by induction to be all backslashes |
| C126 | `Case` | complete tables over the bytes; the first control byte is where reading the capitals stops |

No property is left out as inexpressible.

## 4. Trusted base

* The Lean 4.33.0 kernel and the statements in `Spec`, `Model` and `Props`.
* Axioms: only `propext`, `Quot.sound` and `Classical.choice`. AXIOMS.txt lists them per theorem
  (made by `tools/axioms-listing.txt`). No axiom is declared here; `sorry`, `native_decide` and `bv_decide` are not used.
  Finite tables are evaluated by the kernel (`decide +kernel`).
* Section 2.
* The reading of the C++ text into the model, definition by definition.

Not modelled:

* Arguments of class types other than `std::string`, classes derived from it and `std::fpos`; template instantiation beyond
  the `enable_if` predicates and the ranking in `Overload`.
* Memory asked for by `strtold` and for exception objects. Threads other than in C110; `errno` and the locale
  between threads.
* Locales, except for a decimal point other than `.` (C79, C83): grouping, other digits or spaces.
* The commented-out body of `withinHalfULP` (strtod.cpp); the function as compiled is a stub (C99).
* Build files, benchmarks, performance.

## 5. Defects in the code the proofs turned up

| claim | defect |
|---|---|
| C26, C35 | `POWER10[-kappa]` is indexed up to 18 in a table of ten (dtoa.cpp); most doubles with 16 or 17 digits read behind it, and the text can depend on what is there |
| C23 | on x86 the text of a double, read through 80-bit `long double`, is rounded twice: 5.445846684475361e107 comes back as its neighbour (C77: exactly when) |
| C20, C69 | `jsonify` of NaN and infinities is not JSON |
| C30 | the sign of negative zero is lost |
| C37, C43 | `BigInteger` of a numeral of 8000 digits, or a shift of a full number, writes outside the object |
| C39, C42 | shifting a number of several words by a multiple of 64 bits reads its words after overwriting them |
| C41 | a borrow into an all-ones word is lost in `difference`, and so is a result written over an operand |
| C45, C57 | copies of integer, enumeration and float formatters point into the original |
| C111 | some short decimals are not written back: `65536.0553` becomes `65536.05530000001`, `5e22` becomes 17 digits |
| C112 | floats are written with the digits of a double: `19.99f` becomes `19.98999977111816` and one more digit; only amounts that are multiples of a quarter come back |
| C110 | two threads race although each keeps to its own objects, if one has a formatter of which the other has a copy |
| C115 | the messages of two exceptions have quotes around them, since `LEXI_ASSERT` stringizes string literals |
| C46 | cv-qualified integer, float and stream position types cannot be extracted |
| C49 | `escape` of numbers does not escape `-`, `.` and `+` |
| C94 | in a shell `escape` loses newlines and an empty argument; as a regular expression the point of an escaped number stays a wildcard |
| C119 | in standard SQL `escape` is no protection: a quote ends the literal; in MySQL `%` and `_` get a backslash that stays |
| C120 | `LIKE` in MySQL with an escaped string that has a backslash before its end does not match exactly the string |
| C121 | the JSON text of a string with control bytes that have no letter is no literal of C and Rust, and with a DEL none of TOML |
| C95 | `jsonify` does not protect `</script`, `<!--`, nor U+2028 and U+2029 in JavaScript before 2019 |
| C97 | numbers in exponent notation without a point, or with an exponent that is not negative, are strings in YAML 1.1; NaN and the infinities are strings in YAML and errors in TOML |
| C99 | `withinHalfULP` always answers "half-way" |
| C100 | `+=` that throws leaves a big integer that is not normalised: zero is not recognised, and it compares as greater than every shorter number |
| C89 | after `fesetround` to another direction a double's text can read back as the adjacent double |
| C90 | `errno` is neither cleared nor checked: after a read into a type narrower than 64 bits, or into `float`, it does not tell whether the value was in range |
| C62, C66 | `lexi<float>` rounds twice and is not always the nearest float |
| C63 | `long double` beyond double's range formats as infinity |
| C65 | reading the text of a double below 1e-6 as an integer gives its leading digit |
| C67 | the scaling helper underflows to 0 for exponents below -616 whatever the significand |
| C78 | text that is no numeral is read as 0 by every number type, with no sign that it failed |
| C79 | after `setlocale` to a locale with a decimal comma, reading the text of a double drops its fraction |
| C81 | where `long double` is wider than `double`, the text of a double half-way between two floats can read as the other float than the double converts to (`3.552717702207e-15`) |
| C75 | `lexi<T>(nullptr)` and, for enumerations, `lexi<E>(0)` compile and read from a null pointer; `lexi<bool>(L"…")` is the truth value of a pointer |

## 6. Tests of the theorems

`seeded/LOG.jsonl` has one line per wrong program tried: the definition edited, the edit, the claim it breaks, the
theorems that failed, and what was tightened.
