{"id": "C01", "title": "Integer formatting is canonical decimal", "statement": "For every integer type accepted by lexi::string / FormatInt and every value x of that type, the text produced is exactly the canonical base-10 numeral of x: an ASCII '-' iff x < 0, then digits with no leading zero (except the single digit 0), and nothing else.", "quantifier": "every value of every one of the ten FormatInt overloads (int8..uint64, long in both the 32- and 64-bit data model)", "why_tests_cant": "2^64 inputs; the code takes ~15 hand-unrolled digit paths with separate boundary comparisons, unit tests only try the value 1", "anchors": ["src/detail/itoa.cpp: u32toa,i32toa,u64toa,i64toa", "src/int.cpp: FormatInt::FormatInt"]}
{"id": "C02", "title": "Integer round trip", "statement": "For every integer type T and every value x of T, lexi<T>(lexi::string(x)) == x; no exception is thrown.", "quantifier": "every value of every integer type, including the minimum of each signed type", "why_tests_cant": "the extreme values (INT64_MIN, UINT64_MAX, negative narrow types through an unsigned 64-bit accumulator) cannot be sampled exhaustively", "anchors": ["src/int.cpp: FormatInt, ExtractInt", "include/lexi/lexi.hpp: Format, Extract, lexi"]}
{"id": "C03", "title": "Integer formatting stays inside its buffer", "statement": "Constructing FormatInt from any value never writes outside the object's own buffer and never reads outside the digit table; the terminating NUL is written inside the buffer; size() is at most 20; whatever the buffer held before construction does not influence the text.", "quantifier": "every value of every overload and every initial (uninitialised) buffer content", "why_tests_cant": "a one-byte overflow is invisible to a functional test and depends on the value", "anchors": ["src/detail/itoa.cpp", "include/lexi/detail/fmt.hpp: INTEGER_SIZE", "src/int.cpp: FormatInt"]}
{"id": "C04", "title": "Formatter accessors agree", "statement": "For every formatter object (bool, null, char, int, enum, float) size() == length(), data() == c_str(), string() is exactly the size() bytes at data(), operator std::string equals string(), and the byte at data()[size()] is NUL.", "quantifier": "every value of every formatter type", "why_tests_cant": "needs every constructor path to leave pointer, size and terminator consistent", "anchors": ["src/bool.cpp", "src/char.cpp", "src/null.cpp", "src/int.cpp", "src/float.cpp"]}
{"id": "C05", "title": "Same number, same text, whatever the type", "statement": "Two values of possibly different integer types produce the same text iff they denote the same mathematical integer. In particular distinct integers never collide, and the text of a long does not depend on whether long is 32 or 64 bits wide.", "quantifier": "every pair of integer types and every pair of values", "why_tests_cant": "pairs of 64-bit values; collisions could hide anywhere", "anchors": ["src/int.cpp: FormatInt overloads", "src/detail/itoa.cpp"]}
{"id": "C06", "title": "Unsigned text order", "statement": "For non-negative integers a, b: a < b iff text(a) is shorter than text(b), or has equal length and is lexicographically smaller.", "quantifier": "every pair of unsigned 64-bit values", "why_tests_cant": "order over all pairs cannot be tested", "anchors": ["src/detail/itoa.cpp: u32toa,u64toa"]}
{"id": "C07", "title": "Integer extraction specification", "statement": "lexi<T>(s) for an integer T never throws and returns the value of the longest prefix of the C string s of the form whitespace* [+-]? digit+, reduced modulo 2^width(T) into T; if there is no such prefix the result is 0; if the magnitude exceeds 2^64-1 the accumulator saturates to 2^64-1 before the conversion.", "quantifier": "every byte string s (including empty, embedded NULs, arbitrarily long) and every integer type", "why_tests_cant": "unbounded input strings", "anchors": ["src/int.cpp: ExtractInt::ExtractInt, conversion operators"]}
{"id": "C08", "title": "Integer extraction ignores what does not matter", "statement": "Leading C whitespace, a '+' sign, leading zeros, any text following the digits that does not start with a digit, and everything after a NUL byte do not change lexi<T>(s).", "quantifier": "every amount of whitespace/zeros, every trailing text, every integer type", "why_tests_cant": "unbounded families of inputs", "anchors": ["src/int.cpp: ExtractInt"]}
{"id": "C09", "title": "Out-of-range integer text", "statement": "A numeral whose magnitude is at least 2^64 extracts as the maximum for every unsigned type and as -1 for every signed type, for either sign of the text; a numeral of magnitude below 2^64 extracts as its value modulo 2^width.", "quantifier": "every numeral of every length", "why_tests_cant": "unbounded inputs; the saturation ignores the sign, which no test exercises", "anchors": ["src/int.cpp: ExtractInt"]}
{"id": "C10", "title": "Boolean conversion", "statement": "lexi::string(b) is \"true\"/\"false\"; lexi<bool>(s) returns true iff s is exactly \"true\", false iff s is exactly \"false\", and throws std::runtime_error for every other string; the two conversions are mutually inverse.", "quantifier": "both booleans and every byte string", "why_tests_cant": "the rejecting half ranges over all strings (prefixes, extensions, embedded NULs)", "anchors": ["src/bool.cpp: FormatBool, ExtractBool"]}
{"id": "C11", "title": "Null conversion", "statement": "lexi::string(nullptr) is \"null\"; lexi<std::nullptr_t>(s) succeeds iff s is exactly \"null\" and throws std::runtime_error otherwise.", "quantifier": "every byte string", "why_tests_cant": "the rejecting half ranges over all strings", "anchors": ["src/null.cpp: FormatNull, ExtractNull"]}
{"id": "C12", "title": "Character conversion", "statement": "lexi::string(c) is the one-byte string c for every char including NUL and bytes >= 0x80; lexi<char>(s) is the first byte of s for every non-empty s and throws for the empty string; lexi<char>(lexi::string(c)) == c.", "quantifier": "all 256 chars and every byte string", "why_tests_cant": "all strings", "anchors": ["src/char.cpp: FormatChar, ExtractChar"]}
{"id": "C13", "title": "Escaping is exactly the ASCII non-alphanumerics", "statement": "lexi::escape(s) copies s and inserts one backslash before each byte that is an ASCII character other than a letter, a digit or DEL (0x7f), and before no other byte. Non-ASCII bytes and DEL are unchanged, hence UTF-8 sequences survive.", "quantifier": "every byte string", "why_tests_cant": "all strings; bytes >= 0x80 depend on char signedness", "anchors": ["src/detail/string.cpp: escape", "include/lexi/lexi.hpp: escape"]}
{"id": "C14", "title": "Escaping is reversible", "statement": "Removing escapes (drop each backslash, keep the byte after it) maps lexi::escape(s) back to s; therefore escape is injective.", "quantifier": "every byte string", "why_tests_cant": "all strings, including those already containing backslashes", "anchors": ["src/detail/string.cpp: escape"]}
{"id": "C15", "title": "Escaping is compositional and bounded", "statement": "escape(s + t) == escape(s) + escape(t), escape(\"\") == \"\", and size(s) <= size(escape(s)) <= 2*size(s) with the excess equal to the number of escaped bytes.", "quantifier": "every pair of byte strings", "why_tests_cant": "all pairs of strings", "anchors": ["src/detail/string.cpp: escape"]}
{"id": "C16", "title": "JSON string literals decode to the original", "statement": "For every byte string s, parsing lexi::jsonify(s) as an RFC 8259 string literal (at byte level) succeeds and yields exactly s.", "quantifier": "every byte string, including control bytes, quotes, backslashes, NUL and non-ASCII bytes", "why_tests_cant": "all strings", "anchors": ["src/detail/string.cpp: jsonify", "include/lexi/lexi.hpp: jsonify"]}
{"id": "C17", "title": "JSON string literals cannot be broken out of", "statement": "lexi::jsonify(s) starts and ends with a quote, contains no byte below 0x20, and a JSON reader positioned at it stops exactly at its last byte whatever follows it in the document.", "quantifier": "every byte string s and every following text", "why_tests_cant": "injection safety is a statement about all inputs and all contexts", "anchors": ["src/detail/string.cpp: jsonify", "include/lexi/lexi.hpp: jsonify"]}
{"id": "C18", "title": "JSON literal transparency and size", "statement": "Bytes other than '\"', '\\\\' and control bytes pass through jsonify unchanged and in order (so valid UTF-8 stays valid); the result is compositional apart from the outer quotes; its size is between size(s)+2 and 6*size(s)+2.", "quantifier": "every byte string", "why_tests_cant": "all strings", "anchors": ["src/detail/string.cpp: jsonify"]}
{"id": "C19", "title": "Escape and jsonify do not depend on char signedness", "statement": "escape and jsonify return the same bytes on platforms where plain char is signed and where it is unsigned, and the hexadecimal table is never indexed out of range.", "quantifier": "every byte string, both signedness choices", "why_tests_cant": "one build only ever tests one choice", "anchors": ["src/detail/string.cpp: escape, jsonify, HEX"]}
{"id": "C20", "title": "jsonify of non-string scalars is valid JSON", "statement": "lexi::jsonify of a null, bool, integer, enum or finite floating value is a valid JSON null/boolean/number text denoting that value, and of a char is a one-byte JSON string. (It is not valid JSON for NaN and infinities.)", "quantifier": "every value of every scalar type", "why_tests_cant": "all 2^64 doubles and integers", "anchors": ["include/lexi/lexi.hpp: jsonify", "src/float.cpp", "src/int.cpp", "src/char.cpp"]}
{"id": "C21", "title": "Floating formatting identifies the value", "statement": "For every finite non-zero double x, the text of FormatFloat(x) is a decimal numeral whose exact rational value is strictly closer to x than to every other finite double (and below the overflow threshold); so every correctly rounding reader recovers x bit for bit.", "quantifier": "all 2^64 - 2^53 - 2 finite non-zero doubles, normal and subnormal, both signs", "why_tests_cant": "impossible to enumerate; correctness rests on the error analysis of the 87-entry power table", "anchors": ["src/detail/dtoa.cpp: grisu2, generateDigits, grisuRound, getCachedPower, CACHED_POWERS_F/E, prettify, dtoa", "src/detail/diyfp.cpp"]}
{"id": "C22", "title": "Float round trip where long double is double", "statement": "On platforms whose long double is the binary64 format, lexi<double>(lexi::string(x)) == x for every finite non-zero x, and text of NaN/infinity extracts to NaN/the same infinity.", "quantifier": "all doubles", "why_tests_cant": "2^64 inputs", "anchors": ["src/float.cpp: FormatFloat, ExtractFloat", "src/detail/dtoa.cpp"]}
{"id": "C23", "title": "Float round trip through extended long double", "statement": "On platforms whose long double is wider than double (x86 80-bit), lexi<double>(lexi::string(x)) == x for every finite non-zero x.", "quantifier": "all doubles", "why_tests_cant": "the failure needs a double rounding at a midpoint; about one double in millions", "anchors": ["src/float.cpp: ExtractFloat (long double data_), FormatFloat"]}
{"id": "C24", "title": "binary32 round trip", "statement": "lexi<float>(lexi::string(x)) == x for every finite non-zero float x on every platform whose long double is at least double.", "quantifier": "all floats and all admissible long double formats", "why_tests_cant": "2^32 values times platforms", "anchors": ["src/float.cpp: FormatFloat(float), ExtractFloat::operator float"]}
{"id": "C25", "title": "Floating formatting is memory safe on the write side", "statement": "FormatFloat of any value never writes outside its 30-byte buffer (including the in-place moves), generates at most 17 significant digits, terminates, NUL-terminates inside the buffer, and size() <= 25; previous buffer contents never show in the text.", "quantifier": "every double and every initial buffer content", "why_tests_cant": "needs a bound on the digit loop for all inputs", "anchors": ["src/detail/dtoa.cpp: generateDigits, prettify, writeExponent", "include/lexi/detail/fmt.hpp: FLOAT_SIZE"]}
{"id": "C26", "title": "Floating formatting reads only its tables", "statement": "FormatFloat of any finite double reads only inside the constant tables and performs no undefined shift.", "quantifier": "every finite double", "why_tests_cant": "the out-of-range read depends on how many fractional digits the value needs", "anchors": ["src/detail/dtoa.cpp: POWER10[-kappa], getCachedPower, generateDigits"]}
{"id": "C27", "title": "Floating text grammar", "statement": "For every finite double the text is a valid JSON number: optional '-', an integer part without superfluous leading zeros, and it always contains a '.' or an 'e' (so it is never mistaken for an integer); it begins with '-' iff x < 0.", "quantifier": "every finite double", "why_tests_cant": "all doubles", "anchors": ["src/detail/dtoa.cpp: prettify, writeExponent, dtoa"]}
{"id": "C28", "title": "Notation selection", "statement": "The text of a finite non-zero double uses fixed notation iff its printed value lies in [10^-6, 10^21), otherwise scientific notation with exactly one non-zero digit before the point and an exponent without leading zeros or plus sign, in [-324, 308].", "quantifier": "every finite non-zero double", "why_tests_cant": "all doubles and both notation boundaries", "anchors": ["src/detail/dtoa.cpp: prettify, writeExponent"]}
{"id": "C29", "title": "Sign symmetry", "statement": "For every finite x > 0 the text of -x is '-' followed by the text of x.", "quantifier": "every positive finite double", "why_tests_cant": "all doubles", "anchors": ["src/detail/dtoa.cpp: dtoa"]}
{"id": "C30", "title": "Special values", "statement": "Every NaN bit pattern formats as NaN, infinities as Infinity / -Infinity, and both zeros as 0.0 (the sign of -0.0 is lost); no finite value formats as any of these.", "quantifier": "every bit pattern of the special classes and every finite double", "why_tests_cant": "2^53 NaN patterns", "anchors": ["src/float.cpp: FormatFloat::format", "src/detail/ieee754.cpp: isFinite,isNan,isInfinity", "src/detail/dtoa.cpp: dtoa"]}
{"id": "C31", "title": "Floating text preserves order and distinctness", "statement": "For finite doubles x < y (not both zero) the printed values satisfy value(text x) < value(text y); distinct finite doubles other than the two zeros never share a text; the printed value has the sign of x.", "quantifier": "every pair of finite doubles", "why_tests_cant": "all pairs of doubles", "anchors": ["src/detail/dtoa.cpp: dtoa"]}
{"id": "C32", "title": "Floating printed accuracy", "statement": "The printed value differs from x by less than half a unit in the last place of x (on the side of a power of two boundary, less than half of the smaller gap).", "quantifier": "every finite non-zero double", "why_tests_cant": "all doubles", "anchors": ["src/detail/dtoa.cpp: grisu2"]}
{"id": "C33", "title": "Cached power selection", "statement": "For every binary exponent that a finite double's upper boundary can have, the table index selected by getCachedPower is inside the table and the scaled exponent lies in [-60, -32]; the selection does not depend on intermediate floating-point precision or fused multiply-add.", "quantifier": "every exponent in range, every rounding of the floating computation within a relative error of 2^-40", "why_tests_cant": "depends on floating rounding and compiler contraction, tests run one build", "anchors": ["src/detail/dtoa.cpp: getCachedPower, CACHED_POWERS_E"]}
{"id": "C34", "title": "Cached power table accuracy", "statement": "Every entry of the cached table is the correctly rounded 64-bit significand of the power of ten it stands for, with a set top bit.", "quantifier": "all 87 entries", "why_tests_cant": "a wrong low-order bit changes only rare outputs; no functional test would notice", "anchors": ["src/detail/dtoa.cpp: CACHED_POWERS_F, CACHED_POWERS_E"]}
{"id": "C35", "title": "Compiler variants agree", "statement": "The MSVC, GCC and generic variants of the extended multiplication, normalisation and multiply-add helpers return the same result, so the same double formats to the same text on every platform.", "quantifier": "every pair of 64-bit operands; every finite non-zero double", "why_tests_cant": "a build exercises only one variant; 2^128 operand pairs", "anchors": ["src/detail/diyfp.cpp: mul, normalize, normalizeBoundary", "src/detail/bigint.cpp: mulAdd"]}
{"id": "C36", "title": "IEEE classification", "statement": "isNan, isInf, isInfinity, isNegativeInfinity, isFinite, isZero and isPositive agree with the IEEE-754 class of the value; every double is exactly one of finite, infinite, NaN.", "quantifier": "all 2^64 bit patterns", "why_tests_cant": "2^64 inputs", "anchors": ["src/detail/ieee754.cpp"]}
{"id": "C37", "title": "Big integer from decimal text", "statement": "BigInteger(decimals, n) over any run of n ASCII digits, up to at least 8000 of them, holds exactly the number they denote and touches no memory outside itself; any non-digit makes it throw; leading zeros and the empty run are accepted.", "quantifier": "every byte string up to the capacity bound", "why_tests_cant": "inputs of thousands of digits", "anchors": ["src/detail/bigint.cpp: BigInteger(const char*,size_t), add, parse"]}
{"id": "C38", "title": "Big integer addition and multiplication are exact", "statement": "After b += d and b *= d (64- and 32-bit overloads) and b.mulPow5(n), the value of b is exactly the old value plus d, times d, times 5^n, or the operation throws because the capacity would be exceeded; the two multiplication overloads agree.", "quantifier": "every representable big integer and every operand", "why_tests_cant": "carry chains of any length", "anchors": ["src/detail/bigint.cpp: operator+=, operator*=, mulPow5, mulAdd, POWER5"]}
{"id": "C39", "title": "Big integer shift is exact", "statement": "After b <<= s the value of b is exactly the old value times 2^s whenever the result fits.", "quantifier": "every big integer and every shift", "why_tests_cant": "the defect needs two or more words and a multiple of 64, which decimal parsing never produces", "anchors": ["src/detail/bigint.cpp: operator<<="]}
{"id": "C40", "title": "Big integer comparison", "statement": "For big integers produced by the API, a.compare(b) is -1, 0, 1 according to the numeric order, a == b iff the values are equal, isZero() iff the value is 0, and compare is a total order.", "quantifier": "every pair of reachable big integers", "why_tests_cant": "needs the no-leading-zero-word invariant over all operation histories", "anchors": ["src/detail/bigint.cpp: compare, operator==, isZero"]}
{"id": "C41", "title": "Big integer difference", "statement": "a.difference(b, &out) stores |a - b| in out and returns true iff a < b; it throws when a == b.", "quantifier": "every pair of distinct big integers", "why_tests_cant": "the borrow defect needs an all-ones word together with an incoming borrow: probability 2^-64 under random tests", "anchors": ["src/detail/bigint.cpp: difference"]}
{"id": "C42", "title": "Big integer histories refine natural numbers", "statement": "For any sequence of constructions and +=, *=, mulPow5, <<= operations, as long as no operation throws, the object behaves exactly like a natural number under the same operations, and the representation invariant (no leading zero word, count within capacity) holds after every step.", "quantifier": "every finite operation sequence", "why_tests_cant": "unbounded histories", "anchors": ["src/detail/bigint.cpp"]}
{"id": "C43", "title": "Big integer capacity", "statement": "No big integer operation writes outside the object: when the result does not fit, it throws.", "quantifier": "every reachable big integer at the capacity limit", "why_tests_cant": "the limit is reached only with values of more than 26000 bits", "anchors": ["src/detail/bigint.cpp: push_back, operator<<= ", "include/lexi/detail/bigint.hpp: capacity"]}
{"id": "C44", "title": "Copies of bool, null and char formatters are independent", "statement": "In any history of constructing, copying, assigning, and destroying FormatBool/FormatNull/FormatChar objects, every live object's string() is the text of the value it was last constructed or assigned from.", "quantifier": "every finite history of object operations", "why_tests_cant": "histories are unbounded and lifetime errors are not deterministic", "anchors": ["include/lexi/bool.hpp", "include/lexi/null.hpp", "include/lexi/char.hpp"]}
{"id": "C45", "title": "Copies of int, enum and float formatters are independent", "statement": "In any history of constructing, copying, assigning and destroying FormatInt/FormatEnum/FormatFloat objects, every live object's string() is the text of the value it was last constructed or assigned from, and no destroyed object is read.", "quantifier": "every finite history of object operations", "why_tests_cant": "a stale pointer often still reads the right bytes", "anchors": ["include/lexi/int.hpp: first,last", "include/lexi/float.hpp: first,last", "include/lexi/enum.hpp"]}
{"id": "C46", "title": "Type dispatch is unambiguous", "statement": "For every C++ type, at most one formatting overload and at most one extraction overload is enabled, exactly one for each supported type (nullptr_t, bool, char, the ten integer types, the three floating types, enumerations, fpos), and none for string types in the value path; both directions pick the same category.", "quantifier": "every type in the classification", "why_tests_cant": "overload ambiguity is a compile-time fact for every instantiation", "anchors": ["include/lexi/lexi.hpp: Format, Extract", "include/lexi/detail/type.hpp"]}
{"id": "C47", "title": "Enum and stream position round trip", "statement": "For every enumeration with an integer underlying type and each of its values e, lexi<E>(lexi::string(e)) == e and the text is the decimal underlying value; for every stream offset o, lexi<fpos>(lexi::string(fpos(o))) has offset o.", "quantifier": "every underlying type, every value", "why_tests_cant": "all values of all underlying types", "anchors": ["include/lexi/enum.hpp", "include/lexi/lexi.hpp: is_fpos overloads"]}
{"id": "C48", "title": "Strings pass through unchanged", "statement": "lexi::lexi(s) and lexi::string(s) return s unchanged for std::string (including embedded NULs); for a C string they return the bytes before the first NUL; escape/jsonify of a char equals escape/jsonify of the one-byte string.", "quantifier": "every byte string", "why_tests_cant": "all strings", "anchors": ["include/lexi/lexi.hpp: string overloads", "src/char.cpp"]}
{"id": "C49", "title": "escape() of scalar formatters is the plain text", "statement": "escape() of null, bool, integer, enum and float formatters returns the plain text; for null, bool and non-negative integers this equals lexi::escape(string()), for negative integers and all finite floats of fixed notation it does not (their '-' and '.' stay unescaped).", "quantifier": "every scalar value", "why_tests_cant": "all values", "anchors": ["src/int.cpp: FormatInt::escape", "src/float.cpp: FormatFloat::escape", "src/bool.cpp", "src/null.cpp"]}
{"id": "C50", "title": "Decimal scaling helpers", "statement": "For every integer-valued double d <= 2^53-1 and exponent p in [-22, 37], when the exact fast path accepts it returns the correctly rounded value of d*10^p; the power table is read only inside its 309 entries for |p| <= 308.", "quantifier": "every significand and exponent of the fast path", "why_tests_cant": "2^53 * 60 inputs", "anchors": ["src/detail/strtod.cpp: fastPath, fast", "src/detail/pow.cpp: pow10"]}
{"id": "C51", "title": "Configurable literals fit their buffers", "statement": "With the default literal macros (LEXI_NULL, LEXI_TRUE, LEXI_FALSE, LEXI_NAN, LEXI_INFINITY, LEXI_NEGATIVE_INFINITY) every special-literal formatter stays inside its buffer and reports the literal's length; which overriding literals preserve this is characterised exactly, and extraction accepts exactly the literals in force.", "quantifier": "every choice of literal strings", "why_tests_cant": "each build fixes one choice", "anchors": ["include/lexi/detail/define.hpp", "src/bool.cpp", "src/null.cpp", "src/float.cpp"]}
{"id": "C52", "title": "Shortest digits up to a small margin", "statement": "The text of every finite non-zero double denotes D*10^k with D < 10^17 such that no decimal m*10^j with j > k lies within 0.49 units in the last place of the double (0.24 when its significand is a power of two); so at most a digit is wasted only when the shorter decimal is within 1% of the rounding boundary.", "quantifier": "every finite non-zero double and every decimal", "why_tests_cant": "2^64 doubles; non-shortest outputs are rare", "anchors": ["src/detail/dtoa.cpp: grisu2, generateDigits"]}
{"id": "C53", "title": "Decimal fidelity", "statement": "A normal double that is within 0.49 units in the last place (0.24 at powers of two) of a decimal with at most 15 significant digits prints as a numeral of exactly that decimal value (0.1 prints 0.1).", "quantifier": "every normal double and every decimal of at most 15 digits near it", "why_tests_cant": "10^15 decimals per exponent", "anchors": ["src/detail/dtoa.cpp: grisu2, prettify", "src/float.cpp: FormatFloat"]}
{"id": "C54", "title": "Double round trip through binary128", "statement": "On platforms whose long double is IEEE binary128, lexi<double>(lexi::string(x)) == x for every finite non-zero double x, although the text is rounded twice.", "quantifier": "all finite non-zero doubles", "why_tests_cant": "depends on how close printed values come to rounding boundaries for all doubles", "anchors": ["src/float.cpp: ExtractFloat, FormatFloat", "src/detail/dtoa.cpp"]}
{"id": "C56", "title": "Short values are portable", "statement": "A double near (0.49 units in the last place, 0.24 at powers of two) a decimal of at most ten significant digits formats without reading outside the constant tables, and to the same bytes on every platform, whatever words follow the tables in memory.", "quantifier": "all such doubles, all platforms, all buffer contents", "why_tests_cant": "a test build sees one memory layout", "anchors": ["src/detail/dtoa.cpp: POWER10, generateDigits"]}
{"id": "C55", "title": "Reading gives the nearest double", "statement": "Where long double is binary64, lexi<double> of every JSON number text is the double nearest to the text's exact value, ties to even, with the text's sign, and infinity exactly when the value is at least (2^54-1)*2^970.", "quantifier": "every JSON number text of any length", "why_tests_cant": "unboundedly many texts; ties are rare", "anchors": ["src/float.cpp: ExtractFloat", "include/lexi/float.hpp: operator double"]}
{"id": "C57", "title": "Returned formatters need copy elision", "statement": "lexi::string of an integer, enumeration, stream position or float yields the text when the compiler constructs the returned formatter in place, and reads a destroyed temporary when it copies it; bool, null and char are right either way.", "quantifier": "every value, platform, initial buffer contents and elision choice", "why_tests_cant": "a test build sees only one elision choice, and stale stack memory often still holds the text", "anchors": ["include/lexi/lexi.hpp: Format", "include/lexi/int.hpp: first,last", "CMakeLists.txt: CMAKE_CXX_STANDARD"]}
{"id": "C58", "title": "Reading is faithful on every platform", "statement": "For every long double format with at least double's precision and range, lexi<double> of every JSON number text is one of the two doubles around the text's exact value (the value itself if it is a double), with the text's sign; beyond the largest double it is that double or infinity.", "quantifier": "every JSON number text, every such long double format", "why_tests_cant": "unboundedly many texts and several platforms", "anchors": ["src/float.cpp: ExtractFloat", "include/lexi/float.hpp: operator double"]}
{"id": "C59", "title": "Reading is monotone", "statement": "For every long double format with at least double's precision and range, if the value of one JSON number text is at most that of another, so are the doubles lexi<double> reads from them.", "quantifier": "all pairs of JSON number texts, every such long double format", "why_tests_cant": "pairs of unbounded texts", "anchors": ["src/float.cpp: ExtractFloat", "include/lexi/float.hpp: operator double"]}
{"id": "C60", "title": "Whole doubles print as integers", "statement": "A finite double equal to an integer n of magnitude below 2^54 formats as the canonical decimal numeral of n followed by '.0', on every platform and whatever the out-of-range table reads return; and lexi<T> of that text is n for every integer type T that holds n. From 2^56 on it is not so: 72057594037928096 formats as a number 4 greater.", "quantifier": "all such doubles, all platforms, all buffer contents, all ten integer types", "why_tests_cant": "2^54 values times platforms; depends on the shortest-digit search never stopping at another integer", "anchors": ["src/detail/dtoa.cpp", "src/float.cpp", "src/int.cpp"]}
{"id": "C61", "title": "Floating extraction accepts exactly the longest number at the start", "statement": "For every byte string, lexi<long double>, lexi<double> and lexi<float> never fail. After C white space and one optional sign, the longest beginning that is a decimal numeral, a hexadecimal numeral, inf/infinity or nan/nan(chars) in any case is read; the long double is the nearest number to its exact value (ties to even, overflow to infinity), the double and the float are one of the two neighbours of the exact value (the nearest double where long double is double) with the text's sign, and reading preserves order between any two numerals. Text without such a beginning reads as +0.", "quantifier": "all byte strings, every long double format containing the target", "why_tests_cant": "unboundedly many texts with four overlapping forms whose longest match decides", "anchors": ["src/float.cpp:137-141", "src/float.cpp:146-165"]}
{"id": "C62", "title": "Reading floats", "statement": "For every long double format containing the floats, lexi<float> of every JSON number text is one of the two floats around the text's exact value, with the text's sign, and reading is monotone; it is the nearest float when long double represents the text's value exactly. It is not always the nearest (the text is rounded twice): a counterexample is given for binary64, x87 and binary128 long doubles.", "quantifier": "every JSON number text (pairs of them for monotonicity), every such long double format", "why_tests_cant": "unboundedly many texts; double rounding errors are about one in 2^29 inputs", "anchors": ["src/float.cpp:137-149"]}
{"id": "C63", "title": "long double formats through double", "statement": "lexi::string of a long double is the text of the double nearest to it (ties to even), and an infinity text from (2^54-1)*2^970 on although the value is finite; so distinct long doubles share texts.", "quantifier": "every finite long double value of any format, all literals, buffers and platforms", "why_tests_cant": "2^80 values", "anchors": ["src/float.cpp:31-50", "src/float.cpp:65-68"]}
{"id": "C64", "title": "Reading long doubles", "statement": "lexi<long double> of every JSON number text is the nearest number of the long double format, ties to even, with the text's sign, and the infinity exactly from the format's overflow threshold on. Formatting and reading back a long double is exact for whole numbers up to 2^53 on every platform, and not exact in general where long double is wider than double, even for values that are doubles.", "quantifier": "every JSON number text, every binary format with precision at least 2; all whole numbers up to 2^53", "why_tests_cant": "unboundedly many texts and formats", "anchors": ["src/float.cpp:137-141", "src/float.cpp:162-165"]}
{"id": "C65", "title": "Reading a number's text as an integer", "statement": "lexi<Int> of a JSON number text equals lexi<Int> of its integer part: fraction and exponent are dropped. Without exponent this is truncation toward zero wrapped into the type (below 2^64, else the saturated value). So formatting a double and reading it as an integer truncates when the double is zero or between 1e-6 and 2^53 in magnitude; in scientific notation (below 1e-6 or from 1e21 on) the result is the leading decimal digit, in particular never 0 for a tiny non-zero double.", "quantifier": "every well-formed JSON number text, every integer type; every finite double in the stated ranges, all literals, buffers and supported platforms", "why_tests_cant": "unboundedly many texts; 2^64 doubles", "anchors": ["src/int.cpp: ExtractInt", "src/float.cpp: FormatFloat", "src/detail/dtoa.cpp: prettify, writeExponent"]}
{"id": "C66", "title": "Integers read as floating numbers", "statement": "lexi<double> of lexi::string of an integer is one of the two doubles next to it, the nearest (ties to even) where long double is double or holds every 64-bit integer, and the integer itself up to 2^53. lexi<float> of it is one of the two floats next to it, the nearest where long double holds every 64-bit integer, and not always the nearest where long double is double.", "quantifier": "every value of every integer type, every supported platform and long double format at least as wide as the target", "why_tests_cant": "2^64 values per type", "anchors": ["src/int.cpp: FormatInt", "src/float.cpp: ExtractFloat"]}
{"id": "C67", "title": "Accuracy of decimal scaling", "statement": "StrtodNormalPrecision(d, p), the scaling step of the double parser, returns for -616 <= p <= 308 a double of d's sign within |d|*10^p/2^50 + 2^-1074 of d*10^p unless the result is within that relative error of overflow; results beyond the overflow threshold by that margin are infinities of d's sign. Below -616 it returns 0, which is within the bound for every |d| <= 2^64 and off by more than 2^40 smallest doubles for d = 1e308, p = -617.", "quantifier": "every finite double d and every integer p in the stated ranges", "why_tests_cant": "2^64 doubles times 925 exponents, rational error bound", "anchors": ["src/detail/strtod.cpp: fastPath, StrtodNormalPrecision", "src/detail/pow.cpp: pow10"]}
{"id": "C68", "title": "UTF-8 is preserved", "statement": "escape and jsonify map valid UTF-8 to valid UTF-8, code point by code point: under escape every ASCII code point except letters, digits and DEL gains a backslash, under jsonify a JSON special one becomes its escape, and every other code point is unchanged. The output is valid UTF-8 only if the input is. A formatted char from 0x80 on is not valid UTF-8 in any of string, escape and jsonify.", "quantifier": "every byte string, every char, both signednesses of char", "why_tests_cant": "byte strings of unbounded length", "anchors": ["src/detail/string.cpp: escape, jsonify", "src/char.cpp: FormatChar"]}
{"id": "C69", "title": "Documents assembled from jsonify are JSON", "statement": "A document (arrays and objects nested to any depth) whose leaves and keys are rendered by lexi::jsonify and joined with brackets, commas and colons is accepted by an RFC 8259 reader, which returns the same shape, the same keys, and at each leaf the argument's value: null, the boolean, the exact integer, the exact string bytes, or a rational strictly closer to the floating argument (rounded to double) than to any other double. It is accepted if and only if no leaf is a NaN, an infinity or a long double beyond double's range. It is valid UTF-8 if all strings and keys are and every char is ASCII.", "quantifier": "every document over every supported argument type, all buffer contents (independently per call), platforms, signedness of char", "why_tests_cant": "documents of unbounded size and depth", "anchors": ["include/lexi/lexi.hpp: jsonify, Format", "src/detail/string.cpp: jsonify", "src/float.cpp: FormatFloat::jsonify"]}
{"id": "C70", "title": "string, escape and jsonify agree", "statement": "For every argument of a supported type, lexi::string, lexi::escape and lexi::jsonify all return normally; removing the backslashes of escape gives string; for chars and strings jsonify is a JSON string literal that decodes to string; for every other type the three results are equal.", "quantifier": "every argument of every supported type including NaN and infinities, all buffer contents, platforms, signedness of char", "why_tests_cant": "unbounded strings, 2^64 numbers", "anchors": ["include/lexi/lexi.hpp: string, escape, jsonify"]}
{"id": "C71", "title": "Printed digits are the nearest of their length", "statement": "If formatting a finite non-zero double stays inside its tables, the printed magnitude is D*10^k such that no multiple of a higher power of ten is near the double, and no other multiple of 10^k is nearer to it by more than 1/256 of a unit in the last place; hence the error is at most half a unit of the last printed decimal place plus that margin. When formatting reads behind the table the printed decimal need not be the nearest.", "quantifier": "all finite non-zero doubles whose formatting stays inside the tables, all platform variants, all initial buffer contents, all competing decimals", "why_tests_cant": "The property compares each of 2^64 outputs with every other decimal of the same precision; a wrong final rounding step still produces text that reads back correctly, so round-trip tests do not notice it.", "anchors": ["src/detail/dtoa.cpp:154-167", "src/detail/dtoa.cpp:213-292"]}
{"id": "C72", "title": "Reading from the formatter's own pointer", "statement": "Reading any supported type from the pointer Format()(x).c_str() gives the same outcome as reading it from the std::string lexi::string(x), whatever the rest of the buffer holds, for every scalar x except the character NUL, which reads back from the std::string and makes lexi<char> throw from the pointer. For a string the pointer gives the part before its first NUL. Reading from any terminated array depends only on the bytes before the first terminator; from an array without terminator it is undefined.", "quantifier": "all scalar values of all supported types and all strings, all target types, all platforms and long double formats, all initial buffer contents", "why_tests_cant": "the claim is about the bytes behind the text in an uninitialised buffer, which a test sees only as whatever its stack happened to hold", "anchors": ["include/lexi/lexi.hpp:83-157", "src/int.cpp:141-144", "src/float.cpp:99-102", "src/char.cpp:61-64"]}
{"id": "C73", "title": "The round trip over all types at once", "statement": "For every scalar value x of every supported type that survives on the platform, lexi<T>(lexi::string(x)) with T the type of x succeeds and equals x (a zero comes back as a zero, a NaN as a NaN). Everything but floating values survives everywhere; floats where long double is no narrower than double; doubles where long double is binary64 or has at least 73 bits of precision, and those of even significand and the special values also where it has 64; long doubles where long double is binary64.", "quantifier": "all values of all supported types, all platforms meeting the stated condition, all initial buffer contents", "why_tests_cant": "2^64 doubles and 2^64 integers on every platform variant", "anchors": ["include/lexi/lexi.hpp:27-157", "src/float.cpp:40-97", "src/int.cpp:22-139"]}
{"id": "C74", "title": "When exactly big integers are right", "statement": "The decimal constructor over a run of digits is exact if the number before the last chunk of n digits (chunks of 19 from the left) times 5^n is below 2^26560 and otherwise writes outside the object. A shift by s is exact if and only if the value is zero, s is zero, s is no multiple of 64 and the result leaves the last word free, or s is a multiple of 64, the copy fits, and the words in memory behind the number repeat it. A history of operations that does not throw agrees with the natural numbers after each of its steps if and only if each of its whole-word shifts meets such memory.", "quantifier": "every digit run of any length, every big integer and every shift, every finite operation sequence", "why_tests_cant": "the result depends on stale words left by earlier operations of unbounded histories", "anchors": ["src/detail/bigint.cpp: BigInteger(const char*,size_t), operator<<=, mulPow5"]}
{"id": "C75", "title": "Which lexi<T> a call selects", "statement": "Under the C++14 ranking of conversions, for every supported type T: a call lexi<T>(text), text passed as std::string or a class derived from it, pointer to or array of (const) char, selects a reading function, also where T itself converts from pointers (bool); lexi<T>(x) with x of type T selects the formatting function, also for nullptr and a literal 0 of type T; a number of another arithmetic or unscoped enumeration type is converted and formatted; lexi<T>(nullptr) of any other T reads from a null pointer (undefined); a literal 0 of another type is never formatted: it is read from as a null pointer, or the call is ambiguous; pointers that are not text are formatted as truth values by lexi<bool> and rejected by every other type; lexi<std::string>(text) passes the text through. A volatile T or a volatile string is rejected.", "quantifier": "all supported types T (any enumeration, any stream position), all argument types outside other classes, all implementation choices (signedness and width of char, wchar_t, long; promotions of enumerations; tie-breaking between templates)", "why_tests_cant": "each combination of T and argument type is a separate program that must be compiled, on each platform", "anchors": ["include/lexi/lexi.hpp:144-175", "include/lexi/detail/type.hpp:22-172"]}
{"id": "C76", "title": "Constructors and conversions inside Format and Extract", "statement": "For every supported type the formatter's constructor that overload resolution selects is the one for that very type; for every integral underlying type of an enumeration (including bool, char, wchar_t, char16_t, char32_t) exactly one constructor of FormatInt is best and its parameter represents all values of the type; other arithmetic types are ambiguous. Whatever type an extraction overload is enabled for, exactly one conversion function of the extractor yields it.", "quantifier": "all supported types, all integral underlying types, all implementation choices for char, wchar_t and long", "why_tests_cant": "the tests cover one enumeration with one underlying type on the build platform", "anchors": ["include/lexi/lexi.hpp:28-135", "include/lexi/int.hpp:29-75", "include/lexi/enum.hpp:24-57", "include/lexi/float.hpp:31-63", "include/lexi/char.hpp:27-57"]}
{"id": "C77", "title": "When exactly a double survives extended long double", "statement": "On a platform whose long double has at least 64 significant bits (x86 80-bit included), the text of a finite non-zero double x is read as the nearest long double r and lexi<double> gives x back unless the last bit of x is set and r lies exactly half-way to an adjacent double; then it gives that neighbour.", "quantifier": "all finite non-zero doubles, all long double formats of at least 64 bits, all platforms", "why_tests_cant": "the exceptions are about one double in thousands of millions per digit length and need the exact rounded value to be recognised", "anchors": ["src/float.cpp:137-141, 154-157", "src/detail/dtoa.cpp: dtoa, grisu2"]}
{"id": "C78", "title": "Reading is total", "statement": "lexi<T>(s) for every supported T and every std::string gives a value of type T or throws, and is never undefined; it throws exactly for T = nullptr_t or bool and text that is not the word, and for T = char and empty text. Printing what was read and reading again changes nothing if the value read survives printing (C73). A number's text never reads as null or a boolean; the words read as any number type give zero.", "quantifier": "all types, all byte strings, all values, all platforms", "why_tests_cant": "all byte strings times all types", "anchors": ["include/lexi/lexi.hpp:83-157", "src/bool.cpp:104-113", "src/null.cpp:103-114", "src/char.cpp:99-119", "src/int.cpp:179-183", "src/float.cpp:137-141"]}
{"id": "C79", "title": "Reading in a locale with another decimal point", "statement": "In a C locale whose decimal point is another byte, lexi<double>(lexi::string(x)) gives x exactly when it does in the \"C\" locale and either the text has no point or x is a whole number in fixed notation; a float always in the same two cases; every other text is silently read as the part before its point.", "quantifier": "all finite non-zero doubles and floats, all single-byte decimal points, all long double formats of at least 53 bits", "why_tests_cant": "the tests run in the \"C\" locale", "anchors": ["src/float.cpp:140 (std::strtold)", "src/detail/dtoa.cpp:324-384"]}
{"id": "C80", "title": "Float text read as double", "statement": "lexi<double>(lexi::string(f)) of a finite non-zero float f is the double with exactly the value of f, also through 80-bit long double, where some doubles do not survive.", "quantifier": "all finite non-zero floats, all platforms with binary64 long double or one of at least 64 bits", "why_tests_cant": "2^32 floats times platforms; the second rounding goes wrong only near ties of long double", "anchors": ["src/float.cpp:137-157", "src/float.cpp:40-97", "src/detail/dtoa.cpp:386-415"]}
{"id": "C81", "title": "Double text read as float", "statement": "lexi<float>(lexi::string(d)) of a finite non-zero double d has the sign of d and is a float nearest to d, or infinity beyond the float range; it is the float that converting d gives wherever long double is double, and elsewhere unless d lies half-way between two floats, when it can be the other one.", "quantifier": "all finite non-zero doubles, all platforms with binary64 long double or one of at least 54 bits", "why_tests_cant": "the differing doubles are 1 in 2^29", "anchors": ["src/float.cpp:137-149", "src/detail/dtoa.cpp:386-415"]}
{"id": "C82", "title": "Enumeration and stream position extraction", "statement": "lexi<E>(s) and lexi<std::fpos>(s) never throw; they give the number written at the start of s, saturated at 2^64-1 and converted to the underlying type (modulo a power of two; for bool whether it is non-zero), and 0 when s starts with no number.", "quantifier": "all byte strings, all underlying types of enumerations, all platforms", "why_tests_cant": "all byte strings; the tests read single in-range values", "anchors": ["include/lexi/enum.hpp:31-58", "include/lexi/lexi.hpp:122-134", "src/int.cpp:190-262"]}
{"id": "C83", "title": "Decimal points of several bytes", "statement": "In a locale whose decimal point is a string of several bytes, the first of which occurs in no number, lexi<double>/lexi<float> read a printed number as if it ended at its point, read a number written with the locale's point as the C locale reads it with '.', and recover exactly the printed values without a point or whole without an exponent.", "quantifier": "all finite non-zero doubles and floats, all decimal-point strings with such a first byte, all number texts", "why_tests_cant": "the tests run in the C locale", "anchors": ["src/float.cpp:137-157", "src/detail/dtoa.cpp:324-384"]}
{"id": "C84", "title": "Everyday doubles stay inside the tables", "statement": "Formatting a double never reads outside POWER10 when it holds an integer below 2^42 in magnitude, a decimal of at most five places below 2^42 or of at most thirteen below 2^16, or has a magnitude in [2^9, 2^16) or [2^36, 2^42); a double from 2^42 up to 2^53, with or without a fraction, is formatted inside the tables exactly when it is a multiple of 1000. All doubles of 496 of the 2046 normal exponents are safe, powers of two aside.", "quantifier": "all doubles of the stated kinds, all platforms, all initial buffer contents", "why_tests_cant": "an out-of-range read mostly returns harmless bytes; billions of values per kind", "anchors": ["src/detail/dtoa.cpp:267 (POWER10[-kappa])", "src/detail/dtoa.cpp: getCachedPower"]}
{"id": "C85", "title": "When a number is read as its nearest double or float", "statement": "Where long double is wider than the target, lexi<double> (lexi<float>) of a JSON number in range is the double (float) nearest to the number exactly when the long double strtold gives has not moved onto the middle of two neighbours whose even one is on the other side than the number. Numbers below 2^53 (2^24) of k decimal places are all read as the nearest double (float) exactly when 10^k < 2^(p-52) (2^(p-23)), p the bits of long double: three places for doubles on x86, nine for floats where long double is a double.", "quantifier": "all JSON numbers in range, all long double formats with at least one bit more than the target, all k", "why_tests_cant": "unboundedly many texts; the misread ones are about one in 2^11 (x86 doubles) or 2^29 (floats) and never occur among short decimals", "anchors": ["src/float.cpp:137-157"]}
{"id": "C86", "title": "Decimal scaling with excess precision", "statement": "When double expressions are evaluated in a wider format (32-bit x86, FLT_EVAL_METHOD 2), the fast path of strtod.cpp accepts and declines the same inputs as in plain double arithmetic, its result is one of the two doubles next to n*10^p, and is the nearest exactly when the intermediate result is not a middle whose even side is the wrong one; sufficient: exact products, and quotients by at most 10^3 on x87. It is not always the nearest.", "quantifier": "all integral significands up to 2^53-1, all exponents -22..37, all evaluation formats of at least 54 bits", "why_tests_cant": "tests run on x86-64 with SSE arithmetic; failures are one in thousands", "anchors": ["src/detail/strtod.cpp:26-36", "src/detail/strtod.cpp:138-152"]}
{"id": "C87", "title": "Which significands the fast path accepts, and what for", "statement": "The fast path of strtod.cpp accepts exactly exponents from -22 to 37 with a significand that is no NaN and is negative (of any size, minus infinity included) or finite and at most 2^53-1 (above exponent 22: times 10^(p-22), before rounding, below 2^53-1/2). Up to exponent 22 every accepted finite significand gives the nearest double of the product; above, there are two roundings, harmless when the first product is a double, and otherwise the accepted result need not be the nearest.", "quantifier": "all doubles, all exponents", "why_tests_cant": "2^64 significands times all exponents; the function is static and not called", "anchors": ["src/detail/strtod.cpp:138-152"]}
{"id": "C88", "title": "Normalising any extended-precision number", "statement": "The three variants of normalize agree exactly when the significand has at most 53 bits, the two of normalizeBoundary exactly when it has at most 54. The bit-scan variants are defined exactly for a non-zero significand, the generic ones exactly when one of the low 53 (54) bits is set; within those sizes they return the same number with the top bit set.", "quantifier": "all 64-bit significands, all exponents, all compiler variants", "why_tests_cant": "a build holds one variant; the generic loop never ends on significands no test uses", "anchors": ["src/detail/diyfp.cpp:93-158"]}
{"id": "C89", "title": "Reading and formatting under the other rounding modes", "statement": "After fesetround to upward, downward or toward zero, lexi<double> and lexi<float> of a number are exactly its rounding in that direction, with its sign, whatever the long double format; words and texts without a number read as under round-to-nearest. The text of a double does not depend on the mode, a long double formats as the double on that side. A finite non-zero double survives formatting and reading exactly when its printed value does not lie beyond it in the direction of rounding; otherwise it comes back as the adjacent double.", "quantifier": "all four rounding modes, all byte strings, all finite doubles, all long double formats containing double", "why_tests_cant": "tests run in the default mode; the two roundings differ only on inputs near the boundary of two formats", "anchors": ["src/float.cpp:137-165", "src/detail/dtoa.cpp:196", "include/lexi/lexi.hpp:115-120"]}
{"id": "C90", "title": "What errno says after reading", "statement": "Extraction never resets or tests errno, so a caller's check sees what strtoull and strtold store. After an integer read errno is ERANGE exactly if the numeral is 2^64 or more, whatever type was asked for; with errno still 0 the value is right exactly if the numeral is in the range of the type, and the check is a complete range check only for unsigned 64-bit types and texts without a minus. After a floating read it is ERANGE from the overflow threshold of long double on and unchanged for zero and normal long doubles; so a text that overflows or underflows float always, and double where long double is wider, gives infinity or zero with errno unchanged, and where long double is double ERANGE and infinity coincide above the subnormals. Texts of integers leave errno unchanged, and so do those of finite doubles (where long double has no greater range: zeros and those above the least normal).", "quantifier": "all byte strings, all integer types, all long double formats, all previous values of errno, all choices the C standard leaves to the library", "why_tests_cant": "no test looks at errno; the outcome depends on the platform's long double", "anchors": ["src/int.cpp:179-183", "src/float.cpp:137-141", "include/lexi/lexi.hpp:107-120"]}
{"id": "C91", "title": "Repeated saving and loading does not drift", "statement": "Write a double with string, read it with lexi<double>, write it again, and so on, any number of times and each time on any machine (any compiler variant; long double equal to double or of at least 64 bits): every step succeeds and the value changes at most once. The change is one of four: a NaN becomes the usual quiet NaN, -0 becomes 0, an odd finite double becomes one of its two neighbours; the sign of non-zero values is kept, and zero and infinity are never reached. Floats do not change at all apart from NaNs and -0. A long double is fixed after two cycles on its machine. string(lexi<double>(s)) applied twice to any text is a normal form, and once suffices where long double is double or has at least 73 bits.", "quantifier": "all doubles, floats, long doubles and texts; all finite sequences of machines, of any length", "why_tests_cant": "the drift of rounding errors over many cycles and over different platforms is a statement about unbounded executions; tests run on one platform", "anchors": ["include/lexi/lexi.hpp:58-63", "include/lexi/lexi.hpp:115-120", "src/float.cpp:53-68", "src/float.cpp:137-141"]}
{"id": "C92", "title": "Platforms disagree in the last digit at most", "statement": "Whatever the compiler variant, the excess precision and the memory behind the POWER10 table, two platforms print the same finite number with the same bytes except for at most one digit, the last one of the significand: the same length, sign, notation and exponent. The two texts denote (10m+a)*10^k and (10m+b)*10^k with the same m and k. Where they do differ, formatting that number reads outside POWER10 on both platforms. Every number, of any class, takes the same number of bytes everywhere.", "quantifier": "all float, double and long double values, all pairs of platforms, all memory contents, all literals", "why_tests_cant": "a test runs on one platform with one memory image", "anchors": ["src/detail/dtoa.cpp: grisuRound, generateDigits", "src/float.cpp:31-50"]}
{"id": "C93", "title": "Exact buffer sizes", "statement": "Formatting in a buffer of any length n: the text t does not depend on the buffer; if n > |t| exactly t and a NUL are written and nothing else changes, otherwise a write leaves the buffer. Hence the least sufficient sizes: 5, 4, 7, 6, 12, 11 bytes for signed char, unsigned char, short, unsigned short, int, unsigned int, 21 for both 64-bit types (long as its width says), and 26 for float, double and long double alike, on every platform; the library reserves 22 and 30.", "quantifier": "all values of all types, all buffer lengths and contents, all platforms", "why_tests_cant": "tests use the one buffer size of the library, where too small a size need not show", "anchors": ["include/lexi/int.hpp:23-26", "include/lexi/float.hpp:24-26", "src/detail/itoa.cpp", "src/detail/dtoa.cpp", "src/float.cpp:31-50"]}
{"id": "C94", "title": "escape as read by a shell and a regular expression engine", "statement": "escape(s) on a POSIX command line is read as the one word s without its newlines, as no word if nothing is left, and cannot be passed if s has a NUL. A command line of escaped arguments is read back as exactly those arguments if and only if none of them is empty or has a newline or NUL; in every case nothing but words is read and no argument becomes two. As part of a regular expression escape(s) matches s and nothing else, for every byte string. For arguments that are no text, escape is one harmless word; as an expression it matches only itself if and only if it has no point, which only floating-point numbers have.", "quantifier": "all byte strings, all lists of arguments, all surrounding expressions, all values of all types", "why_tests_cant": "quoting bugs are about the one byte or combination nobody tried", "anchors": ["src/detail/string.cpp: escape", "include/lexi/lexi.hpp: escape"]}
{"id": "C95", "title": "jsonify pasted into JavaScript and pages", "statement": "jsonify(s) is a JavaScript string literal with value s, whatever follows it, for every byte string since ECMAScript 2019, and before exactly if s has no U+2028 and no U+2029. Any text that begins with '<' and has no quote, backslash or control byte occurs in jsonify(s) if and only if it occurs in s, so '</script' and '<!--' reach an HTML parser unchanged.", "quantifier": "all byte strings, all text that follows, all such patterns", "why_tests_cant": "a property of all texts and all continuations", "anchors": ["src/detail/string.cpp: jsonify", "include/lexi/lexi.hpp: jsonify"]}
{"id": "C96", "title": "Records of escaped fields and lines of JSON", "statement": "Joining escaped strings with a separator byte and splitting at the unescaped separators gives back the same strings for every non-empty list if and only if the separator is a byte escape() escapes, other than the backslash. With a separator that is also neither '-' nor '.', values of all types can be mixed: every field unescapes to the text of its value, and every value that survives text on the platform is read back from its field. JSON literals one per line are recovered by splitting at the line ends if and only if the line end is a control byte, and so are the jsonify texts of values of all types.", "quantifier": "all separators, all non-empty lists of byte strings or of values of all types, all platforms", "why_tests_cant": "a property of all lists and all contents, including those with the separator inside", "anchors": ["src/detail/string.cpp: escape, jsonify", "include/lexi/lexi.hpp"]}
{"id": "C97", "title": "Numbers and words in other notations", "statement": "The text of every finite floating-point number is a floating constant of C (after its minus), a float and not an integer of the YAML 1.2 core schema and of TOML, an xs:double and a JSON5 number; YAML 1.1 reads it as a float exactly if it has a point and its exponent, if any, is negative, and never as an integer. The text of an integer, enumerator or stream position is a base 10 integer in all of them and never octal. NaN and the infinities are JSON5 numbers, only NaN is an xs:double, and none is a number of YAML, TOML or C. null, true and false are YAML's words.", "quantifier": "all values of all scalar types, all platforms", "why_tests_cant": "membership in a grammar for all values", "anchors": ["src/detail/dtoa.cpp: prettify, writeExponent", "src/float.cpp:31-50", "src/int.cpp", "include/lexi/detail/define.hpp"]}
{"id": "C98", "title": "The work of formatting a number is bounded", "statement": "Formatting any finite double other than 0, the digit loops of generateDigits turn exactly once per significant digit written, at most 17 times; the correction loop of grisuRound turns at most 9 times; each normalisation loop (in builds without a bit scan) turns once per leading zero of the significand, at most 52 times, and not at all for normal numbers: at most 130 turns in all, whatever the platform and the memory.", "quantifier": "all finite non-zero doubles, all compiler variants, all memory contents", "why_tests_cant": "the loops have no bound in the source; termination and its bound hold for all 2^64 bit patterns", "anchors": ["src/detail/dtoa.cpp:154-167", "src/detail/dtoa.cpp:213-271", "src/detail/diyfp.cpp:117-158"]}
{"id": "C99", "title": "The half-way test is unfinished", "statement": "withinHalfULP(b, d, e), meant to compare the distance of d*10^e from b with half a unit in the last place of b, answers rightly exactly if d*10^e is one of the two half-way points; for the digits the library itself prints for a finite non-zero double, with that double as the guess, the right answer is always 'less' and the function's never is. min3 returns the least of its arguments.", "quantifier": "all doubles, big integers, exponents; all linear orders", "why_tests_cant": "a statement about all doubles and all decimals", "anchors": ["src/detail/strtod.cpp:55-127"]}
{"id": "C100", "title": "What is left of a big integer when an operation throws", "statement": "An exception out of += , *= or mulPow5 leaves the object changed: the exact result (for mulPow5: of the first step that does not fit) modulo 2^26624, in all 416 words. After += the object is never normalised any more: it is not recognised as zero and compares as greater than every shorter number; after *= it is normalised exactly if the top word is not zero. A shift that throws changes nothing. A caller that catches every exception and goes on adding and multiplying meets no undefined behaviour and computes modulo 2^26624.", "quantifier": "all normalised big integers, operands, exponents and shifts, all mulAdd variants; all histories of assignments, additions and multiplications with exceptions caught", "why_tests_cant": "all states of 416 words and histories of any length", "anchors": ["src/detail/bigint.cpp:133-137", "src/detail/bigint.cpp:241-352", "src/detail/bigint.cpp:373-388"]}
{"id": "C101", "title": "Texts of integers cut short, run together or in a list", "statement": "Reading the first k bytes of the text of an integer gives the integer divided by ten to the number of missing bytes, rounded toward zero, also when only the sign or nothing is left. Without its first k bytes (the sign among them) the text reads as the remainder of the absolute value, where only the least value of a signed type comes back as itself. Two texts run together read as the first if the second is negative, otherwise as the number with the digits of both, or 2^64-1 if that is 2^64 or more, reduced to the type. A list of integers joined with any separator but a digit or a minus sign, split and read, is the list.", "quantifier": "all integer types, values, supported platforms, cut positions, separators and lists", "why_tests_cant": "all values, cuts and lists of any length", "anchors": ["src/int.cpp:19-113", "src/int.cpp:179-263"]}
{"id": "C102", "title": "The defects of the big integer are in operator<<= and difference only", "statement": "With the lines of operator<<= and of the loop of difference changed as Model/Repair.lean says, and all else as in the repository, the big integer computes on natural numbers: a shift by any distance is exact or throws because the result does not fit in 416 words; decimal text is converted exactly if it is digits and the number fits, and throws otherwise; difference throws on equal numbers and otherwise stores the absolute difference and nothing else, also in place; and any history of operations on any number of objects computes what it does to natural numbers, or throws where a result does not fit or an operand is refused, and never touches memory outside the objects. These are C37, C39, C41, C42 and C43 in full, which are false of the present code.", "quantifier": "all objects satisfying the invariant, shifts, texts, multiply variants, memory contents, aliasings and histories", "why_tests_cant": "unbounded histories, 416-word numbers, every memory content", "anchors": ["src/detail/bigint.cpp:118-128", "src/detail/bigint.cpp:196-211", "src/detail/bigint.cpp:323-352", "src/detail/bigint.cpp:393-423"]}
{"id": "C103", "title": "The only defect of number formatting is the short table of powers", "statement": "With POWER10 declared as nineteen 64-bit powers of ten instead of ten 32-bit ones, and all else as in the repository: every double is formatted without an undefined read (C26 in full); the text is the same for every multiplication variant and every evaluation of the floating-point estimate (C35 in full); and the printed decimal of every finite non-zero double is a shortest one and the nearest of its length, up to 1/256 of a unit in the last place (C71 without its hypothesis). Where the present code stays inside its table the text does not change, and elsewhere it changes in at most one digit, the last.", "quantifier": "all doubles, variants, evaluations of dk, literals and contents of the buffer", "why_tests_cant": "2^64 doubles, and platforms that differ in the words behind the table", "anchors": ["src/detail/dtoa.cpp:34", "src/detail/dtoa.cpp:253-271"]}
{"id": "C104", "title": "Memberwise copies are the only defect of the formatter objects", "statement": "With a copy constructor and a copy assignment that copy the buffer and point first and last into the new object, added to FormatInt, FormatEnum and FormatFloat, and all else as in the repository: after any history of constructions, copies, assignments (of an object to itself too) and destructions, every live object yields the text of the value it was last constructed or assigned from and no destroyed object is read (C45 in full); lexi::string and its like give the text whether or not the compiler elides the copy of the returned formatter (C57 in full); and histories without copies run as before.", "quantifier": "all histories, values, platforms and initial buffer contents", "why_tests_cant": "unbounded histories; a stale pointer often still reads the right bytes", "anchors": ["include/lexi/int.hpp:21-52", "include/lexi/enum.hpp:22-26", "include/lexi/float.hpp:21-47"]}
{"id": "C105", "title": "Reading numbers through long double is the only defect of reading them", "statement": "With operator double and operator float of ExtractFloat converting the text by strtod and strtof instead of converting the long double of strtold: on every platform, every finite non-zero double and float is read back from its text (C23 in full), and every RFC 8259 number is read as the nearest double and the nearest float, ties to even, with its sign, or as the infinity beyond the rounding threshold (C55 on every platform, and for floats, where the present code is not always nearest on any platform).", "quantifier": "all doubles, floats, JSON numbers of any length, platforms", "why_tests_cant": "the failure of the present code needs a double rounding at a midpoint", "anchors": ["src/float.cpp:137-165"]}
{"id": "C106", "title": "Texts of floating-point numbers cut short or in a list", "statement": "Reading the first k bytes of an RFC 8259 number gives what reading the number left of it gives: the integer digits, the fraction digits and the exponent digits among those bytes, where a point, an exponent marker or an exponent sign with no digit after it does not count; a sign alone, or nothing, is read as zero. The value left is the significand divided by a power of ten and truncated inside the integer part, the significand truncated to the places left inside the fraction, and the significand with the exponent divided by a power of ten, rounded toward zero, inside the exponent. For a double printed without an exponent, cut after its point, the value read is a double next to the printed value truncated, which is off by less than one unit of the last place left. For a double from 1e21 on, losing the last byte makes the value at least 10^19 times too small; below one millionth it makes it at least 10^7 times too large. A list of finite non-zero doubles joined with a byte no number contains, split and read with one rounding, is the list.", "quantifier": "all JSON numbers of any length, cut positions, long double formats, doubles, environments meeting EnvOk, separators and lists", "why_tests_cant": "all numbers, cuts and lists of any length", "anchors": ["src/float.cpp:137-165", "src/detail/dtoa.cpp:326-370"]}
{"id": "C107", "title": "Which configured literals are read back", "statement": "With overriding NUL-free literals: both booleans are read back from their texts exactly if LEXI_TRUE has four bytes and LEXI_FALSE five; null exactly if LEXI_NULL has four; NaNs exactly if LEXI_NAN is, after white space and a sign, a word starting with nan in any case, because reading never consults the literal; the infinities (where long double is double) exactly if their literals are inf-words of the right sign or start with a numeral of the right sign at or beyond the rounding threshold. Under these conditions the round trip over all types (C73) holds as with the default literals. Nothing C reads as NaN is JSON, so no LEXI_NAN makes jsonify of every NaN valid JSON and lets it be read back; with null, 1e999 and -1e999 every double is written as JSON and all but the NaNs (read as zero) and the sign of zero come back.", "quantifier": "all NUL-free literals, buffers, environments meeting EnvOk, values of all types, long double formats", "why_tests_cant": "tests use one configuration; the literals range over all strings", "anchors": ["include/lexi/detail/define.hpp:30-53", "src/bool.cpp:26-35", "src/bool.cpp:104-113", "src/null.cpp:25-42", "src/float.cpp:20-60", "src/float.cpp:137-165"]}
{"id": "C108", "title": "With the longer table and the direct conversions every value comes back on every platform", "statement": "If the power table has its missing entries (C103) and operator float and operator double convert directly (C105), then every value of every type other than strings and long double comes back from its text, NaNs as NaNs and zeros as zeros, whatever the format of long double on the reading side and whichever kept literals are configured; the text of a long double, read as double, is the double it was printed through; and any two platforms with the same literals, whatever their widths of long, signs of char, multiplication variants, evaluation of dk and memory contents, produce the same defined text, escaped text and JSON for every argument that exists on both.", "quantifier": "all values of all types, pairs of platforms, buffers, literals that are kept (C107), long double formats", "why_tests_cant": "the claim compares all platforms with each other and ranges over all doubles", "anchors": ["include/lexi/lexi.hpp:86-134", "include/lexi/lexi.hpp:182-230", "src/float.cpp:137-165", "src/detail/dtoa.cpp:34"]}
{"id": "C109", "title": "The memory escape and jsonify ask for, and the exceptions they throw", "statement": "With the capacity, the allocations and the exceptions of std::string in the model: on every library (max_size, short-string capacity, growth policy, behaviour of shrink_to_fit) and whatever memory is granted, a call of escape or jsonify that returns, returns the bytes proved correct in C13 to C19; bad_alloc comes only from a refused request; nothing is undefined and src.size() * 2 + 1 does not wrap. escape asks for one buffer of 2n+1 bytes and never regrows it, and throws length_error exactly if 2n+1 exceeds max_size, even where the text would fit. jsonify throws length_error only if 2n+1 or the text exceed max_size, and exactly then if memory is granted; it regrows its buffer not at all if the text has at most 2n+1 bytes, at most twice where capacities double, at most three times where they grow by half.", "quantifier": "all strings up to max_size, libraries, sequences of granted and refused requests", "why_tests_cant": "strings near max_size and exhausted memory cannot be had in a test; the growth policy is the library's", "anchors": ["src/detail/string.cpp:29-46", "src/detail/string.cpp:53-101", "include/lexi/lexi.hpp:226-230", "src/char.cpp:85-88"]}
{"id": "C110", "title": "Formatter objects in several threads", "statement": "Threads that name only objects of their own, and shared ones nobody changes, never race on FormatBool, FormatNull and FormatChar: in every interleaving each thread reads the texts and leaves the objects it would alone, and all together are defined exactly if each alone is. For FormatInt, FormatEnum and FormatFloat this holds, after any history of constructions, copies, assignments and destructions, if each object has the same owner as the object at the start of its chain of copies or that one is shared; while no copy has outlived its original the condition is necessary, since otherwise some two threads keeping to their own objects race. With the repaired copies of C104 no condition is left, and each thread reads the texts of its values.", "quantifier": "all histories before the threads start, numbers of threads, programs, owners and interleavings", "why_tests_cant": "interleavings are not reproducible; a race need not show in the text read; the condition is about all programs", "anchors": ["include/lexi/int.hpp:21-52", "include/lexi/enum.hpp:22-26", "include/lexi/float.hpp:21-47", "include/lexi/bool.hpp:21-42", "include/lexi/null.hpp:21-42", "include/lexi/char.hpp:21-42", "src/int.cpp:115-152", "src/float.cpp:73-110"]}
{"id": "C111", "title": "Decimals of three places come back as written", "statement": "The double nearest to a decimal with at most 15 digits and at most three decimal places (prices, percentages, milliseconds) is formatted as exactly that decimal: sign, integer part, point, the places without zeros behind them but at least one. Reading such a text and formatting the result returns the same bytes, where long double is a double, the 80-bit format or binary128. Three is the limit on every platform: 65536.0553 is written with 16 digits; and a small number of digits does not help, 5e22 is written with 17. A normal double near a decimal of at most 15 digits has the same text on every platform.", "quantifier": "all decimals n/10^j with |n| < 10^15 and j up to 3, all doubles nearest to them, all platforms and configured literals; the limit for every platform", "why_tests_cant": "4*10^15 decimals; the first failure with four places is 65536.0553; the reason is that thousandths keep a distance of 1/250 ulp from the ends of rounding intervals while the algorithm gives up 1/256", "anchors": ["src/detail/dtoa.cpp: grisuRound, generateDigits, prettify", "src/float.cpp:31-50", "src/float.cpp:136-142"]}
{"id": "C112", "title": "Floats are written as decimals only when they are those decimals", "statement": "A double that equals a decimal with fewer than 2^53 units of its last place, and is zero or at least 10^-6, is written as exactly that decimal. A float below 2^53 that is a multiple of 2^-12 is written as exactly its value. The text of any other finite float has at least 13 decimal places. So a float below 2^53 is written as a given decimal of at most twelve places if and only if it equals it, and of the amounts with two places below 2^22 exactly the multiples of a quarter survive a float. Twelve is the limit: 512.00006103515625f is written with 13 places that are not its value.", "quantifier": "all finite doubles and floats, all decimals with up to twelve places (any number of places for doubles), all platforms and configured literals", "why_tests_cant": "negative statements about all decimals and all 2^32 floats on all platforms; the margin that decides is 5^12 against 2^29", "anchors": ["src/float.cpp:31-68", "src/detail/dtoa.cpp: grisu2, generateDigits, prettify"]}
{"id": "C113", "title": "The memory the public formatting functions ask for", "statement": "For an argument that is no text, string, escape and jsonify ask for memory at most once, exactly if the text does not fit inside a std::string object, and throw nothing but bad_alloc for a refused request. Null, booleans, characters, integers and enumerations of up to 32 bits never ask on a library with room for 15 bytes, so their conversions cannot fail. With room for n bytes an integer asks for nothing iff it is greater than -10^(n-1) and less than 10^n. With room for less than 25 bytes some double and some float ask; with room for 25 no number does. A copy of a string asks at most once; escape and jsonify of a const char * pay for one copy and then do what C109 says of the string.", "quantifier": "all arguments, libraries (room, growth, max_size, shrink_to_fit), machines and earlier requests", "why_tests_cant": "the answers of the allocator and the decisions of the library are arbitrary functions", "anchors": ["include/lexi/lexi.hpp:180-230", "src/char.cpp:69-88", "src/int.cpp:149-152", "src/float.cpp:107-110"]}
{"id": "C114", "title": "Equal texts exactly for equal values", "statement": "jsonify gives two arguments of any types the same text exactly if they mean the same: the same text, integer, boolean, null, floating-point number (0 and -0 being the same number), the same infinity, or any two NaNs. A text made on any machine shows what the argument means and has one meaning only; whether it is a text, an integer, a floating-point number, a boolean or null can be told from its first byte and from whether it has only digits and a sign. The same holds for string among arguments that are no texts, and never when texts are mixed in, since each text of a value is also the text of a string argument.", "quantifier": "all pairs of arguments of all accepted types, machines and initial memories, with the default literals", "why_tests_cant": "pairs of all arguments of all types", "anchors": ["include/lexi/lexi.hpp:180-230", "src/detail/dtoa.cpp:280-397", "src/float.cpp:33-110"]}
{"id": "C115", "title": "The memory the extraction functions ask for", "statement": "Reading any type from a std::string asks for no memory if it gives a value, and gives exactly the value the text has. It throws only for text that is no word (null, bool) and empty text (char): a std::runtime_error with the type's message, or std::bad_alloc if there is no memory to keep that message; numbers never throw. Reading from a terminated array is the same after at most one request, made exactly if the text does not fit inside a string object. So values of at most 32 bits, and all values where a string object has room for 25 bytes, go to text and back with no memory at all, through strings and through the pointers of the formatters.", "quantifier": "all types, texts, libraries (room, growth, max_size), allocators, earlier requests, long double formats", "why_tests_cant": "the answers of the allocator and the decisions of the library are arbitrary functions", "anchors": ["include/lexi/lexi.hpp:83-157", "src/null.cpp:103-106", "src/bool.cpp:104-113", "src/char.cpp:99-103", "include/lexi/detail/define.hpp:18-22"]}
{"id": "C116", "title": "Equal documents exactly for equal values", "statement": "Documents assembled from jsonify of their leaves and keys, with commas, colons and brackets and no white space, have equal texts exactly if they have the same shape, the same keys in the same order and at the leaves the same values in the sense of C114, NaN and infinities included. Only if holds across machines. Two documents joined by a comma can be divided in one way only.", "quantifier": "all pairs of documents of any depth and width, keys, leaves of all types, machines and buffer contents, with the default literals", "why_tests_cant": "unbounded trees", "anchors": ["include/lexi/lexi.hpp:217-230", "src/detail/string.cpp:53-110"]}
{"id": "C117", "title": "Texts in CSV records and query strings", "statement": "The texts of values other than characters and strings joined with commas are a CSV record (RFC 4180) of just those texts, hold only bytes unreserved in URLs, and as values of a query string decode to themselves; the values that survive come back from the fields. Strings joined with commas read as themselves exactly if none holds a quote, comma or line end. JSON strings joined with commas read as the strings they stand for exactly if JSON escaped nothing in any of them. In query strings a string decodes to itself exactly if it holds no % and no +, its escaped form exactly if nothing was escaped, and its JSON form never.", "quantifier": "all lists of values of all types and names, all byte strings and lists of them, all machines and buffer contents, with the default literals", "why_tests_cant": "unbounded lists of unbounded strings; the exact conditions are about all strings", "anchors": ["include/lexi/lexi.hpp:180-230", "src/detail/string.cpp:20-110"]}
{"id": "C118", "title": "Order of texts and order of values", "statement": "Read as decimal numbers, the texts of two finite numbers are smaller, equal or greater as the numbers are, if both are integers, both are floating-point numbers (a long double counts as the double it is written as), or one is an integer of magnitude below 2^54; the smaller number has the smaller text even if the texts were written on different machines. With greater integers it fails: the double 72057594037928096 is written as a number greater than the integer 72057594037928098. A greater long double never has a text of smaller value. In byte order the texts of negative integers come first, and two integers of one sign are ordered as the fractions with their digits behind the point, the shorter first of two equal ones: with texts of equal length as the numbers if they are not negative and the other way round if they are.", "quantifier": "all pairs of values of all number types, all machines and buffer contents, with the default literals", "why_tests_cant": "pairs of all doubles; adjacent doubles differ in the 17th digit, and digits come from approximate arithmetic with slack on both sides", "anchors": ["include/lexi/lexi.hpp:180-194", "src/detail/dtoa.cpp:326-394", "src/detail/itoa.cpp:60-316", "src/float.cpp:1-130"]}
{"id": "C119", "title": "Texts in SQL string literals", "statement": "Between single quotes, the result of escape on a string reads: in standard SQL as that string exactly if no byte of it is escaped, and a quote with more behind it gets out of the literal, what is behind it being left as program text; in MySQL, with a single-byte or UTF-8 character set, as that string with a backslash in front of each % and _ (so as that string exactly if it has neither), never getting out; in MySQL with GBK a byte 0x81 to 0xFE in front of a quote gets it out of the literal; in a PostgreSQL E literal as that string if it has no NUL, which is refused. The JSON text of a string reads in standard SQL as itself if there is no quote in the string, and a quote with no other next to it gets out; in MySQL, without a quote in the string, it never gets out, and reads as itself exactly if no byte of the string is escaped.", "quantifier": "all byte strings, both signs of char, all program texts behind the literal that do not begin with a quote", "why_tests_cant": "injection is about one string among all; each dialect reads backslashes in its own way, and a backslash is taken for half of a character in GBK", "anchors": ["include/lexi/lexi.hpp:180-230", "src/detail/string.cpp:20-110"]}
{"id": "C120", "title": "Escaped strings as patterns", "statement": "As a file name pattern (fnmatch, with backslash escapes) and as a pattern of SQL's LIKE with backslash as the escape character, the result of escape on a string matches exactly that string. In MySQL, LIKE with the literal made of the escaped string matches exactly the string if and only if there is no backslash in it but at its end; a single one in front of a % makes the % a wildcard, a single one in front of a byte other than % and _ is lost, and a % escaped twice is a wildcard behind a backslash. In PostgreSQL, LIKE with the E literal made of the string escaped twice matches exactly the string if there is no NUL in it.", "quantifier": "all byte strings, all texts matched against, both signs of char, all program texts behind the literal that do not begin with a quote", "why_tests_cant": "a pattern is right if it matches no other text out of all texts; whether a backslash survives depends on how many readers it passes", "anchors": ["include/lexi/lexi.hpp:180-230", "src/detail/string.cpp:20-110"]}
{"id": "C121", "title": "JSON texts as string literals of other languages", "statement": "jsonify(s) pasted into a program is a double-quoted literal with value s, whatever is behind it: in C++ (since C++11), Go, Python, YAML and Java (which translates Unicode escapes first) for every byte string s; in C exactly if s has no control bytes but backspace, tab, line feed, form feed and carriage return; in Rust exactly if it has none but tab, line feed and carriage return; in TOML exactly if it has no DEL; in these three it is an error otherwise. As a Python bytes literal its value is s exactly if s is ASCII without control bytes other than C's five, and in the double quotes of a shell exactly if s has no control bytes, no $ and no grave accent; these end where they should exactly if s is ASCII, and exactly if it has no $ and no grave accent.", "quantifier": "all byte strings, both signs of char, all texts behind the literal (for Java, all that are themselves translatable)", "why_tests_cant": "a sample finds the bytes somebody thought of; that nothing else matters, in any combination and before any continuation, is about all strings", "anchors": ["include/lexi/lexi.hpp:180-230", "src/detail/string.cpp:20-110"]}
{"id": "C122", "title": "Texts in XML", "statement": "A text pasted into an attribute value reads as itself, and ends where it should, exactly if it has no quote of the attribute's kind, no <, no & and no control bytes; in character data exactly if it has no <, no &, no control bytes but tab and line feed, and no ]]>. So the text of every argument other than characters and strings reads as itself in all three places, and comes back from there if it survives on the platform (C73). The JSON text of a string reads as itself in single quotes exactly if the string has no single quote, < and &, whatever control bytes it has; in double quotes never: the value is empty and the text is left as markup. escape is no protection: the attribute's quote in a string ends the value, and what is behind it is left as markup.", "quantifier": "all byte strings and all values of all argument types, all machines, all documents behind the text", "why_tests_cant": "references such as &amp; turn one text into another that may look right; that no text at all is changed and no string gets out is about all of them", "anchors": ["include/lexi/lexi.hpp:180-230", "src/detail/string.cpp:20-110"]}
{"id": "C123", "title": "Escaping or quoting several times", "statement": "After k applications of escape every byte that needs escaping has got exactly 2^k - 1 backslashes in front of it, so what is added to the length doubles with every layer; removing j layers leaves the others, and removing all leaves the string. k + 1 applications of jsonify to a string with L bytes, q quotes and backslashes, c control bytes, h of which have a two-character escape, give exactly L + 2 + q + 5c - 4h + (2^k - 1)(2q + c + 4) bytes, so at least 2^(k+2) - 2 more than the string; reading j layers leaves the others, and reading all gives the string. The number of layers always shows with jsonify, and with escape exactly if some byte needs escaping.", "quantifier": "all byte strings, all numbers of layers, both kinds of char", "why_tests_cant": "the number of layers is not bounded, and neither are the texts, the length of which is exponential in it", "anchors": ["src/detail/string.cpp: jsonify", "include/lexi/lexi.hpp: jsonify", "src/detail/string.cpp: escape"]}
{"id": "C124", "title": "Strings cut short", "statement": "A prefix of escape(s) is escape(p) for a prefix p of s, or escape(p) and a single backslash, the latter exactly if the number of backslashes at its end is odd; removing its escapes gives p, in the latter case followed by a backslash that is not part of s there. A non-empty proper prefix of jsonify(s), closed with a quote, is read exactly if it is jsonify(d) without its last quote for a prefix d of s, and then as d with nothing left over: no cut, wherever it falls, makes another text.", "quantifier": "all byte strings, all places to cut, both kinds of char", "why_tests_cant": "every string has as many cuts as bytes, and the number of backslashes before a cut is not bounded", "anchors": ["src/detail/string.cpp: jsonify", "include/lexi/lexi.hpp: jsonify", "src/detail/string.cpp: escape"]}
{"id": "C125", "title": "Searching in escaped strings and JSON texts", "statement": "escape(t) begins with, contains or ends with escape(s) exactly if t begins with, contains or ends with s; an occurrence across the boundaries of escapes, as of a backslash in three of them, is no false one. jsonify(t) begins with jsonify(s) without its last quote exactly if t begins with s; it contains jsonify(s) without its quotes if t contains s, and only then if s begins with a byte that stands for itself and is not used within escapes; otherwise it may without.", "quantifier": "all pairs of byte strings, both kinds of char", "why_tests_cant": "a false occurrence needs a particular pair of strings; that there is none is about all pairs", "anchors": ["src/detail/string.cpp: jsonify", "include/lexi/lexi.hpp: jsonify", "src/detail/string.cpp: escape"]}
{"id": "C126", "title": "Changing the case of escaped strings and JSON texts", "statement": "Making the letters of escape(s) small or capital is escaping s with its letters made so, and making those of jsonify(s) small is quoting s with its letters made small. jsonify(s) in capitals is a JSON string exactly if s has no control bytes, and then that of s in capitals.", "quantifier": "all byte strings, both kinds of char", "why_tests_cant": "the letters of escapes are changed too; that this never matters, or exactly when, is about all bytes in all combinations", "anchors": ["src/detail/string.cpp: jsonify", "include/lexi/lexi.hpp: jsonify", "src/detail/string.cpp: escape"]}
