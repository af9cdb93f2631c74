{
"C01": [
"proved",
"all ten integer overloads, every supported platform configuration; C01_unsupported_long_truncated documents the configuration where the claim fails (64-bit long, compiler not recognised by architecture.hpp)"
],
"C02": [
"proved",
""
],
"C03": [
"proved",
"the 22-byte buffer suffices; a 20-byte buffer would overflow"
],
"C04": [
"proved",
"scalar and float parts"
],
"C05": [
"proved",
""
],
"C06": [
"proved",
""
],
"C07": [
"proved",
"strtoull follows C11 7.22.1.4 (trusted)"
],
"C08": [
"proved",
""
],
"C09": [
"proved",
""
],
"C10": [
"proved",
""
],
"C11": [
"proved",
""
],
"C12": [
"proved",
""
],
"C13": [
"proved",
""
],
"C14": [
"proved",
""
],
"C15": [
"proved",
""
],
"C16": [
"proved",
""
],
"C17": [
"proved",
""
],
"C18": [
"proved",
""
],
"C19": [
"proved",
""
],
"C20": [
"proved",
"C20_special_not_json states the exception the property names"
],
"C21": [
"proved",
""
],
"C22": [
"proved",
"strtold assumed correctly rounding (trusted); -0.0 prints 0.0 and reads back +0"
],
"C23": [
"partial",
"false as stated: C23_refuted_x87 gives a double that changes on every x86 System V build. Proved instead: exact for every long double of at least 73 bits (binary128), exact for even significands and off by at most one unit otherwise for 64-bit significands; C77 gives the exact condition. C105 proves the full statement with the lines at fault changed"
],
"C24": [
"proved",
"strtold assumed correctly rounding (trusted)"
],
"C25": [
"proved",
""
],
"C26": [
"partial",
"false as stated: C26_refuted (formatting 1/3 reads behind POWER10). Proved instead: the exact condition under which formatting is defined, that nothing else is undefined, and a large class of safe values. C103 proves the full statement with the lines at fault changed"
],
"C27": [
"proved",
""
],
"C28": [
"proved",
""
],
"C29": [
"proved",
""
],
"C30": [
"proved",
""
],
"C31": [
"proved",
""
],
"C32": [
"proved",
""
],
"C33": [
"proved",
"the scaled exponent is even in [-60,-34]"
],
"C34": [
"proved",
""
],
"C35": [
"partial",
"helpers: multiplication on all operands, normalisations on every reachable significand, the three big-integer multiply-adds on all operands. The conclusion about texts is false in general because of the out-of-range read (C35_text_depends_on_memory); proved for equal memory behind the table and for every value that formats inside the tables; C92 proves that otherwise at most the last digit differs. C103 proves the full statement with the lines at fault changed"
],
"C36": [
"proved",
""
],
"C37": [
"partial",
"false at exactly the stated bound: C37_limit shows that every numeral of 8000 or more digits not starting with '0' writes outside the object. Proved instead: exact up to 7999 digits, non-digits throw, and for any length whatever the constructor returns is exact. The complete condition for runs of digits is C74_decimal. C102 proves the full statement with the lines at fault changed"
],
"C38": [
"proved",
""
],
"C39": [
"partial",
"false as stated: C39_refuted (1 <<= 65, then <<= 64, is not 2^129). Proved instead: exact for every shift not a multiple of 64 that leaves the last word free and for single words; C39_whole_words gives the exact condition for multiples of 64. The complete condition is C74_shift. C102 proves the full statement with the lines at fault changed"
],
"C40": [
"proved",
"for every object satisfying the representation invariant, which C42_invariant proves of every reachable object"
],
"C41": [
"partial",
"false as stated: C41_refuted (a borrow into an all-ones word is lost), C41_in_place_wrong (output aliasing an operand). Proved instead: C41_difference_iff, the exact condition under which the result is right. C102 proves the full statement with the lines at fault changed"
],
"C42": [
"partial",
"false as stated because of the shift: C42_refuted. Proved instead: the invariant for every history, and exact refinement for every history that does not shift multi-word numbers by whole words. The complete condition is C74_history. C102 proves the full statement with the lines at fault changed"
],
"C43": [
"partial",
"false as stated: C43_refuted (shifting a full number writes digits_[416]). Proved instead: the exact condition for the shift, and that no other operation leaves the objects. C102 proves the full statement with the lines at fault changed"
],
"C44": [
"proved",
"every history; bool, null and char formatters"
],
"C45": [
"partial",
"false as stated: C45_refuted (copy, destroy the original, read the copy: undefined behaviour, for all three classes) and C45_wrong_text (copy of 1 prints 2 without any destruction). Proved instead: for every history the exact condition under which each live object reads its text, and that objects constructed and never assigned from another are always right. C104 proves the full statement with the lines at fault changed"
],
"C46": [
"proved",
"every type of the model; ranking of lexi's overloads by conversion sequence is not modelled"
],
"C47": [
"proved",
""
],
"C48": [
"proved",
""
],
"C49": [
"proved",
"scalar and float parts"
],
"C50": [
"proved",
"correct rounding of the fast path and table bounds, assuming double evaluation in double precision (FLT_EVAL_METHOD 0)"
],
"C51": [
"proved",
"scalar and float parts"
],
"C52": [
"proved",
""
],
"C53": [
"proved",
""
],
"C54": [
"proved",
"strtold assumed correctly rounding (trusted)"
],
"C55": [
"proved",
"binary64 long double; strtold assumed correctly rounding (DESIGN.md)"
],
"C56": [
"proved",
""
],
"C57": [
"proved",
"elided: right text; not elided: undefined behaviour; for all values"
],
"C58": [
"proved",
"every long double format with p>=53, emin<=-1074, emax>=1024"
],
"C59": [
"proved",
"same formats as C58"
],
"C60": [
"proved",
""
],
"C61": [
"proved",
"strtold is modelled after C11 7.22.1.3 with correct rounding, see DESIGN.md section 2"
],
"C62": [
"proved",
""
],
"C63": [
"proved",
""
],
"C64": [
"proved",
""
],
"C65": [
"proved",
""
],
"C66": [
"proved",
""
],
"C67": [
"proved",
""
],
"C68": [
"proved",
""
],
"C69": [
"proved",
""
],
"C70": [
"proved",
""
],
"C71": [
"proved",
"powers of two: compared with the decimals within 0.24 units; C71_unsafe_not_nearest shows that the hypothesis is needed"
],
"C72": [
"proved",
"C72_nul is the stated exception"
],
"C73": [
"proved",
"the conditions on floating values are needed: C23_refuted_x87 and C64_not_round_trip"
],
"C74": [
"proved",
"the true counterparts of C37, C39 and C42, as equivalences"
],
"C75": [
"proved",
"arguments of class types other than strings and std::fpos are outside the model"
],
"C76": [
"proved",
"C76_model ties the result to the model of FormatEnum"
],
"C77": [
"proved",
"the exact condition left open by C23"
],
"C78": [
"proved",
""
],
"C79": [
"proved",
"the locale enters through a model of strtold with another decimal point byte (trusted, like strtold itself)"
],
"C80": [
"proved",
""
],
"C81": [
"proved",
""
],
"C82": [
"proved",
""
],
"C83": [
"proved",
"the locale enters through a model of strtold with another decimal point string (trusted, like strtold itself)"
],
"C84": [
"proved",
""
],
"C85": [
"proved",
"where long double is binary64, doubles are covered by C55"
],
"C86": [
"proved",
"assumes the wider result is rounded to double by the return and the assignment"
],
"C87": [
"proved",
"double arithmetic in double precision"
],
"C88": [
"proved",
""
],
"C89": [
"proved",
"strtold and the conversions are taken to round in the current direction; the literal in dk was rounded to nearest by the compiler"
],
"C90": [
"proved",
"the library stores in errno what C11 7.22.1.3 and 7.22.1.4 say; its free choices (no conversion, underflow) are parameters"
],
"C91": [
"proved",
""
],
"C92": [
"proved",
""
],
"C93": [
"proved",
"literals without a NUL inside; the size 26 is for the default literals"
],
"C94": [
"proved",
"the shell reader has no quotes, expansions or operators: text that needs them is outside it; locale C; scalars with the default literals"
],
"C95": [
"proved",
"source text and string values as UTF-8 bytes"
],
"C96": [
"proved",
"values: default literals"
],
"C97": [
"proved",
"grammars of the standards written out in Spec/Notations, without C suffixes, TOML underscores and JSON5 hexadecimal numbers"
],
"C98": [
"proved",
"counted copies of the functions (Model/Work) with a proof that counting changes nothing (C98_counting); the counters are ghost state, the turns are those of the source loops"
],
"C99": [
"proved",
"withinHalfULP is a stub and unused; the statement says exactly where its constant answer is right"
],
"C100": [
"proved",
"the operations are written again keeping the object at the throw; C100_same ties them to the model used elsewhere"
],
"C101": [
"proved",
""
],
"C102": [
"proved",
"About changed lines, not the present code: it shows that the properties refuted by C39_refuted, C41_refuted, C42_refuted, C43_refuted and C37_limit can be proved once those lines are changed, so nothing else in the class stands in their way."
],
"C103": [
"proved",
"About a changed table, not the present code: it shows that nothing but the table stands in the way of C26, C35 and C71. A read behind the nineteen entries stays undefined in the statement. C103_defined is stated with the default literals, as literals of any length need not fit the buffer."
],
"C104": [
"proved",
"About classes with two operations added, not the present ones: C45_refuted and C57_needs_elision are about those."
],
"C105": [
"proved",
"About changed conversion operators, not the present ones: C23_refuted_x87 and C62_float_not_nearest are about those. strtod and strtof are assumed to round correctly, as strtold is elsewhere (trusted)."
],
"C106": [
"proved",
"The list theorem is for platforms whose strtold result is a double (F = binary64); elsewhere C23 says which doubles come back. strtold is trusted to follow the C standard."
],
"C107": [
"proved",
"The round trip assumes words for the infinities; numerals beyond the threshold are covered by C107_infinity and C107_json for long double = double."
],
"C108": [
"proved",
"Of the changed conversions and the longer table, not of the present code (C23 and C35 are false of it); shows that these two changes suffice together. Copies are C104."
],
"C109": [
"proved",
"Behaviour of std::string from [string.capacity] and [string.append]; libraries are assumed to choose a capacity that suffices and is allowed, and 2*max_size+1 to fit in size_t (true of libstdc++ and MSVC). Strings returned by the other functions are not covered."
],
"C110": [
"proved",
"Accesses are to whole objects and an action is one step of the schedule; C110_accesses proves that an action depends on and changes nothing else. The absence of mutable static data is read off the source (Model/Threads.lean)."
],
"C111": [
"proved",
"The limit holds for every environment by C92 (length of the text). C53 gives the value for decimals well inside the interval; here the exact bytes, and no condition on the double but that it is the nearest."
],
"C112": [
"proved",
"Floats are widened to double before formatting (src/float.cpp:53-56), so their shortest digits are those of the double."
],
"C113": [
"proved",
"Formatter objects are on the stack; the copies of formatters that C++14 may make are C57."
],
"C114": [
"proved",
"The literals are the default ones; a long double means the double it is converted to (C63)."
],
"C115": [
"proved",
"strtoull and strtold are taken to allocate nothing; the memory of the exception object itself is not modelled. LEXI_ASSERT stringizes string literals, so two messages have quotes around them."
],
"C116": [
"proved",
"Documents with NaN or infinities are no JSON (C69) but still unambiguous."
],
"C117": [
"proved",
"The conditions are exact: escape and jsonify are no protection in CSV or URLs beyond them."
],
"C118": [
"proved",
"Sorting texts by numeric value (sort -g) sorts the values; sorting them as strings does not."
],
"C119": [
"proved",
"escape is documented only as escaping special characters. It is enough for MySQL (but for LIKE wildcards and character sets with backslash as a second byte) and for E literals, and is no protection at all in standard SQL. The PostgreSQL reader of the specification refuses numeric escapes, which escape never writes."
],
"C120": [
"proved",
"A backslash at the end of a pattern stands for itself in MySQL and is refused in PostgreSQL; the result of escape has none there."
],
"C121": [
"proved",
"Literals are read as bytes, C without trigraphs; what a language does with ill-formed UTF-8 or a byte order mark is left out (jsonify keeps both as they are, C68). The readers refuse octal and hexadecimal escapes, which jsonify never writes, and the expansions of a shell."
],
"C122": [
"proved",
"Bytes are read as UTF-8; ill-formed sequences, U+FFFE, U+FFFF and references by number are outside the reader."
],
"C123": [
"proved",
"Memory is not bounded in these statements; C109 and C113 are about what happens when it is."
],
"C124": [
"proved",
"That no proper prefix is read as it is, without a quote put behind it, is C17. A cut may also fall within the UTF-8 encoding of a character; the statements are about bytes."
],
"C125": [
"proved",
"For occurrences within JSON texts C125_json_infix refutes the direction that needs the condition, with a line feed and the letter n."
],
"C126": [
"proved",
"The letters are those of ASCII, as in the C locale."
]
}