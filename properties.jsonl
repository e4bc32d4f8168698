{"id": "C01", "title": "strtol parses exactly the longest valid prefix", "statement": "strtol(s,&end,base) skips white space, takes one optional sign and an optional base prefix, consumes the longest run of digits valid in the base, returns that number clamped to [LONG_MIN,LONG_MAX] (reporting ERANGE exactly when it was clamped) and leaves end just after the last digit consumed, or at s with result 0 when there is no number.", "quantifier": "every NUL-terminated byte string and every base 0, 2..36", "why_tests_cant": "The strings are unbounded in number and length, and the overflow test has edge cases next to both limits in all 35 bases.", "anchors": ["v0100/srclib/strtol.c:strtol"]}
{"id": "C02", "title": "strtoul parses exactly the longest valid prefix", "statement": "strtoul returns the number denoted by the longest valid prefix, negated modulo 2^32 after a minus sign, or ULONG_MAX with ERANGE exactly when the magnitude does not fit 32 bits; end is placed as for strtol.", "quantifier": "every NUL-terminated byte string and every base 0, 2..36", "why_tests_cant": "Unbounded inputs; wrap-around in the overflow check only shows on particular digit strings.", "anchors": ["v0100/srclib/strtoul.c:strtoul"]}
{"id": "C03", "title": "memmove copies correctly for overlapping buffers", "statement": "After memmove(d,s,n) the n bytes at d hold what the n bytes at s held before the call, and no byte outside [d,d+n) has changed, whatever the overlap; memcpy guarantees the same for disjoint buffers and memset fills exactly its range.", "quantifier": "every memory content, every pair of addresses and every length for which the regions lie in memory", "why_tests_cant": "All overlap distances and lengths cannot be enumerated; a wrong copy direction is visible only for some overlaps.", "anchors": ["v0100/srclib/memmove.c:memmove", "v0100/srclib/memcpy.c:memcpy", "v0100/srclib/memset.c:memset"]}
{"id": "C04", "title": "string and memory comparison agree with unsigned lexicographic order", "statement": "memcmp, strcmp and strncmp return a negative, zero or positive value exactly as the first operand is smaller than, equal to or greater than the second in lexicographic order of unsigned characters (limited to n characters where applicable).", "quantifier": "every pair of byte strings and every length", "why_tests_cant": "Infinite input pairs; a sign error appears only with bytes above 127 at particular places.", "anchors": ["v0100/srclib/memcmp.c:memcmp", "v0100/srclib/strcmp.c:strcmp", "v0100/srclib/strncmp.c:strncmp"]}
{"id": "C05", "title": "string search functions return the first (or last) match", "statement": "strlen, strchr, strrchr, memchr, strstr, strspn, strcspn and strpbrk return the position demanded by the C standard: the first (last for strrchr) occurrence, or the length of the maximal matching prefix, and a null result only if no occurrence exists.", "quantifier": "every byte string, needle, character set and character (including NUL)", "why_tests_cant": "The answer must be right for every haystack/needle pair; naive substring search bugs hit only self-overlapping needles.", "anchors": ["v0100/srclib/strlen.c:strlen", "v0100/srclib/strchr.c:strchr", "v0100/srclib/strrchr.c:strrchr", "v0100/srclib/memchr.c:memchr", "v0100/srclib/strstr.c:strstr", "v0100/srclib/strspn.c:strspn", "v0100/srclib/strcspn.c:strcspn", "v0100/srclib/strpbrk.c:strpbrk"]}
{"id": "C06", "title": "qsort returns a sorted permutation", "statement": "After qsort the array holds a permutation of the original elements in non-descending order of the supplied comparison function, provided that function is a total preorder.", "quantifier": "every array length, every content and every total preorder used as comparison function", "why_tests_cant": "There are n! orders per length and unbounded lengths; heap indexing errors hit only certain sizes.", "anchors": ["v0100/srclib/qsort.c:qsort"]}
{"id": "C07", "title": "bsearch finds a matching element iff one exists", "statement": "On an array sorted with respect to the key, bsearch returns an element comparing equal to the key if there is one and NULL otherwise, and terminates after finitely many comparisons.", "quantifier": "every length, every sorted array and every key", "why_tests_cant": "Off-by-one errors in the interval updates hit only some lengths and key positions.", "anchors": ["v0100/srclib/bsearch.c:bsearch"]}
{"id": "C08", "title": "the heap never hands out overlapping blocks", "statement": "At every point of any sequence of malloc, calloc, realloc and free calls made with valid arguments, the blocks currently allocated are pairwise disjoint, lie inside the heap, are at least as large as requested, and are suitably aligned; a failed call leaves them all intact.", "quantifier": "every finite history of allocator calls with arbitrary sizes (including sizes near the top of the address space)", "why_tests_cant": "The state space of allocation histories is infinite; header corruption shows only after particular split and coalesce sequences.", "anchors": ["v0100/srclib/malloc.c:malloc", "v0100/srclib/free.c:free", "v0100/srclib/realloc.c:realloc", "v0100/srclib/calloc.c:calloc", "v0100/srclib/mm.h"]}
{"id": "C09", "title": "freed memory is fully reusable", "statement": "Two adjacent free blocks never remain unmerged after malloc and free, so that when every block has been freed, the heap is again one single free block and a request that fitted at start fits again.", "quantifier": "every finite history of malloc and free calls on a fixed-size heap", "why_tests_cant": "Fragmentation bugs depend on the order of the frees; the number of orders is unbounded.", "anchors": ["v0100/srclib/free.c:free", "v0100/srclib/malloc.c:malloc"]}
{"id": "C10", "title": "realloc preserves contents", "statement": "When realloc succeeds, the returned block starts with the old contents up to the smaller of the old and the new size; every other live block's contents are unchanged. When it fails, the old block is unchanged.", "quantifier": "every heap state reachable by allocator calls, every live block and every size", "why_tests_cant": "Depends on the whole heap layout and sizes.", "anchors": ["v0100/srclib/realloc.c:realloc"]}
{"id": "C11", "title": "printf integer conversions print the right text", "statement": "For every integer value, printf with %d %i %u %o %x %X and any combination of flags, width and precision writes exactly the characters the C standard prescribes (sign, prefix, zero padding, blank padding and left justification), and reports the number of characters written.", "quantifier": "every 32-bit value, every flag set, every width and precision", "why_tests_cant": "2^32 values times unbounded widths and precisions times flag combinations.", "anchors": ["v0100/srclib/doprint.c:__doprint"]}
{"id": "C12", "title": "calendar conversion round trip", "statement": "gmtime yields a valid calendar date (month, day, hour, minute, second, weekday and day of year all in range and mutually consistent) that denotes the given number of seconds since the epoch, and converting it back with mktime in UTC gives the original time.", "quantifier": "every time_t value from 0 up to the documented upper limit", "why_tests_cant": "2^32 instants; leap year and century rules are edge cases.", "anchors": ["v0100/srclib/brktime.c:__breaktime", "v0100/srclib/bldtime.c:__buildtime", "v0100/srclib/time1.c", "v0100/srclib/mktime.c:mktime"]}
{"id": "C13", "title": "buffered reading delivers exactly the file's bytes", "statement": "Any mixture of fgetc, fread, fgets and ungetc on a stream opened for reading delivers the bytes of the file in order, without loss or duplication (pushed-back bytes first), whatever the buffer size and however the operating system splits the reads.", "quantifier": "every file content, buffer size, read-splitting behaviour and sequence of read operations", "why_tests_cant": "The buffer boundary can fall anywhere in any operation sequence.", "anchors": ["v0100/srclib/fgetc.c:fgetc", "v0100/srclib/fillbuf.c:__fillbuf", "v0100/srclib/fread.c:fread", "v0100/srclib/ungetc.c:ungetc", "v0100/srclib/fgets.c:fgets"]}
{"id": "C14", "title": "buffered writing delivers exactly the written bytes", "statement": "After any sequence of fputc and fwrite calls followed by fflush or fclose the file holds exactly the bytes written, in order, whatever the buffer size and buffering mode.", "quantifier": "every sequence of write operations, buffer size and buffering mode", "why_tests_cant": "The flush points depend on the whole history.", "anchors": ["v0100/srclib/fputc.c:fputc", "v0100/srclib/flushbuf.c:__flushbuf", "v0100/srclib/fwrite.c:fwrite", "v0100/srclib/fflush.c:fflush"]}
{"id": "C15", "title": "fseek moves to the requested position", "statement": "After a successful fseek the next byte read is the one at the requested absolute, current-relative or end-relative position, and ftell reports that position.", "quantifier": "every stream state, every offset and origin", "why_tests_cant": "The interplay of buffered bytes with relative seeks depends on the full buffer state.", "anchors": ["v0100/srclib/fseek.c:fseek", "v0100/srclib/ftell.c:ftell"]}
{"id": "C16", "title": "integer literals get the right value and type or a diagnostic", "statement": "A decimal, octal or hexadecimal literal with an optional u/l suffix is accepted exactly if its value is representable in the target (16- or 32-bit int), in which case the value is exact and the type is signed or unsigned as the C rules demand; otherwise the compiler stops with a diagnostic.", "quantifier": "every digit string of every length, every suffix, both word sizes", "why_tests_cant": "Overflow detection by wrap-around has to be right for all digit strings.", "anchors": ["v0100/smlrc.c:GetNumber"]}
{"id": "C17", "title": "floating literals are correctly rounded", "statement": "A decimal floating literal with at most 112 significant digits is converted to the single-precision number nearest to it, ties to even, with gradual underflow and overflow to infinity.", "quantifier": "every sequence of at most 112 digits and every decimal exponent", "why_tests_cant": "There are 10^112 digit strings; misrounding affects only near-halfway cases.", "anchors": ["v0100/fp.c:d2f", "v0100/fp.c:ChainMultiplyAdd", "v0100/fp.c:ChainDivide", "v0100/srclib/cvtfd.c"]}
{"id": "C18", "title": "long floating literals keep their magnitude", "statement": "A floating literal whose digit string is longer than the converter's digit buffer still denotes (up to the dropped digits' contribution) the written number: dropping digits never changes the decimal exponent.", "quantifier": "every digit string", "why_tests_cant": "Only inputs longer than 112 digits trigger the path.", "anchors": ["v0100/smlrc.c:GetNumber", "v0100/srclib/strtof.c:strtof"]}
{"id": "C19", "title": "macro definitions behave like a dictionary", "statement": "After any sequence of #define and #undef directives, looking up a name yields the body given by the latest #define not followed by an #undef, and no definition disturbs another.", "quantifier": "every history of define/undef operations on every set of names and bodies that fit the table", "why_tests_cant": "Histories are unbounded; the table is compacted in place on every #undef.", "anchors": ["v0100/smlrc.c:FindMacro", "v0100/smlrc.c:UndefineMacro", "v0100/smlrc.c:AddMacroIdent", "v0100/smlrc.c:AddMacroExpansionChar", "v0100/smlrc.c:DefineMacro"]}
{"id": "C20", "title": "identifier interning is faithful", "statement": "Adding an identifier gives a handle that stays valid and keeps denoting the same spelling for as long as it is in scope; two identifiers get the same handle exactly if they are spelled the same; leaving a scope removes exactly the identifiers added in it (goto labels are kept to the end of the function).", "quantifier": "every sequence of identifier insertions and scope exits that fits the table", "why_tests_cant": "The table is scanned backwards through embedded length bytes; corruption depends on the whole history.", "anchors": ["v0100/smlrc.c:FindIdent", "v0100/smlrc.c:AddIdent", "v0100/smlrc.c:AddNumericIdent", "v0100/smlrc.c:UndoNonLabelIdents", "v0100/smlrc.c:AddGotoLabel"]}
{"id": "C21", "title": "names resolve to the innermost declaration", "statement": "An identifier used in an expression refers to the most recent declaration in the innermost enclosing scope; parameters named in nested prototypes never capture it.", "quantifier": "every sequence of declarations and nesting of scopes", "why_tests_cant": "Unbounded nesting and shadowing patterns.", "anchors": ["v0100/smlrc.c:FindSymbol", "v0100/smlrc.c:FindTaggedDecl", "v0100/smlrc.c:FindTypedef"]}
{"id": "C22", "title": "structure layout is sound", "statement": "For every struct or union declaration the compiler accepts, members are placed in order at offsets that are multiples of their (pack-limited) alignment, struct members do not overlap, union members all start at 0, every member lies inside the object, and the total size is a multiple of the object's alignment so that arrays of it keep every member aligned; sizes that do not fit the address space are rejected.", "quantifier": "every list of member types and every packing setting", "why_tests_cant": "Infinite member lists; arithmetic wrap-around needs huge members.", "anchors": ["v0100/smlrc.c:ParseDecl", "v0100/smlrc.c:ParseBase", "v0100/smlrc.c:GetDeclSize", "v0100/smlrc.c:GetDeclAlignment"]}
{"id": "C23", "title": "constant expressions fold to the value the target would compute", "statement": "The compile-time value of a constant integer expression equals the value obtained by evaluating it with two's complement arithmetic of the target word size, signed or unsigned as the operand types require; division by zero and overflowing division are diagnosed.", "quantifier": "every constant expression tree over all operand values, 16- and 32-bit targets", "why_tests_cant": "Unbounded expressions and 2^64 operand pairs per operator.", "anchors": ["v0100/smlrc.c:exprval", "v0100/smlrc.c:truncInt", "v0100/smlrc.c:truncUint", "v0100/smlrc.c:divCheckAndCalc", "v0100/smlrc.c:shiftCountCheck"]}
{"id": "C24", "title": "expressions parse with the C precedence and associativity", "statement": "Every expression made of the supported operators is parsed into the tree that the C grammar assigns to it; redundant parentheses do not change it.", "quantifier": "every expression of every size and nesting depth", "why_tests_cant": "The operator stack can reach any configuration; tests cover finitely many operator sequences.", "anchors": ["v0100/smlrc.c:expr", "v0100/smlrc.c:exprUnary", "v0100/smlrc.c:preced", "v0100/smlrc.c:precedGEQ"]}
{"id": "C25", "title": "generated code for expressions computes the source value", "statement": "Running the instructions emitted for an integer expression leaves in the accumulator the value that C semantics (two's complement of the word size) assigns to it, performs the same stores, and leaves the stack pointer where it was.", "quantifier": "every expression tree (constants, variables, arithmetic, comparisons, shifts, logical operators, assignments, increments) and every initial memory", "why_tests_cant": "Register pressure and operand fusing depend on the shape of unboundedly many trees.", "anchors": ["v0100/cgx86.c:GenExpr1", "v0100/cgx86.c:GenFuse", "v0100/cgx86.c:GetOperandInfo", "v0100/cgx86.c:GenExpr0", "v0100/smlrc.c:exprval"]}
{"id": "C26", "title": "control statements are lowered to the right jumps", "statement": "The code emitted for if/else, while, do-while, for, break, continue and return executes the same sequence of elementary actions as the source statement does under C semantics, including non-terminating loops; every label emitted is defined once.", "quantifier": "every statement tree and every execution", "why_tests_cant": "Nesting is unbounded and loops may run forever.", "anchors": ["v0100/smlrc.c:ParseStatement"]}
{"id": "C27", "title": "switch selects the right case", "statement": "A switch statement transfers control to the case label equal to the controlling value, else to default, else past the statement; duplicate case labels and a second default are rejected; nested switches do not interfere.", "quantifier": "every list of case labels and every controlling value", "why_tests_cant": "The case table is shared by nested switches; number and nesting of labels is unbounded up to the table limit.", "anchors": ["v0100/smlrc.c:ParseStatement", "v0100/smlrc.c:AddCase"]}
{"id": "C28", "title": "conditional directives select the right lines", "statement": "Text is passed on exactly when every enclosing #ifdef/#ifndef/#else branch is the taken one; unbalanced directives are diagnosed.", "quantifier": "every sequence of conditional directives and text lines", "why_tests_cant": "Nesting patterns are unbounded.", "anchors": ["v0100/smlrc.c:pushPrep", "v0100/smlrc.c:popPrep", "v0100/smlrc.c:GetToken"]}
{"id": "C29", "title": "section relocation is independent of buffering", "statement": "The linker writes each section with every relocation applied once at its offset and all other bytes unchanged, as if the whole section were patched in memory, although it streams the section through a small buffer.", "quantifier": "every section content and size and every list of relocations inside the section", "why_tests_cant": "A relocation may straddle any buffer boundary.", "anchors": ["v0100/smlrl.c:RelocateAndWriteSection", "v0100/smlrl.c:Relocate"]}
{"id": "C30", "title": "relocated fields hold the right address", "statement": "After linking, each absolute field holds symbol address plus addend and each pc-relative field, added to the address of the next instruction as the processor does, gives symbol address plus addend, modulo the field width; values not representable in a 16-bit field are rejected.", "quantifier": "every symbol address, place address and addend", "why_tests_cant": "2^96 combinations of values.", "anchors": ["v0100/smlrl.c:Relocate"]}
{"id": "C31", "title": "linking pulls in exactly the needed objects", "statement": "The set of object modules placed in the executable is the smallest set that contains the entry point's module and, for every undefined symbol of a module in the set, the module that defines it; every undefined symbol of the set is then defined or reported.", "quantifier": "every finite set of object modules with arbitrary (also cyclic) symbol references", "why_tests_cant": "Reference graphs are unbounded.", "anchors": ["v0100/smlrl.c:FindAllSymbols", "v0100/smlrl.c:FindSymbolByName"]}
{"id": "C32", "title": "output sections are ordered and do not overlap", "statement": "In the executable all code sections precede all data sections and uninitialised ones come last; each input section starts at a multiple of its alignment (code in 16-bit segments needs at most 4, the relocation tables of the huge format get 4), sections occupy disjoint address ranges, and their file positions agree with their addresses and hold their contents; sizes that overflow are rejected.", "quantifier": "every list of input sections with arbitrary sizes, alignments and attributes", "why_tests_cant": "Arbitrary numbers of sections and 32-bit sizes.", "anchors": ["v0100/smlrl.c:SectDescCmp", "v0100/smlrl.c:FindAllSections", "v0100/smlrl.c:Pass", "v0100/smlrl.c:AlignTo"]}
{"id": "C33", "title": "the preprocessor's hash table behaves like a dictionary", "statement": "After any sequence of insertions and deletions a lookup by name returns the item last stored under it, or nothing if there is none, even when distinct names have equal hash values.", "quantifier": "every history of put/get/del calls with arbitrary names", "why_tests_cant": "Hash collisions and tree shapes depend on the history.", "anchors": ["v0100/ucpp/nhash.c:internal_get", "v0100/ucpp/nhash.c:internal_put", "v0100/ucpp/nhash.c:internal_del"]}
{"id": "C34", "title": "#if expressions evaluate as in C", "statement": "The value of a #if expression is the one obtained from the C grammar's parse tree with 64-bit signed/unsigned arithmetic; operands that C does not evaluate (after &&, || and ?:) cause no division errors.", "quantifier": "every token sequence that is a well-formed conditional expression", "why_tests_cant": "Infinite expressions, each with its own precedence interplay.", "anchors": ["v0100/ucpp/eval.c:eval_shrd", "v0100/ucpp/eval.c:eval_opbin", "v0100/ucpp/eval.c:eval_expr"]}
{"id": "C35", "title": "string and character literals denote the right bytes", "statement": "Every accepted string or character literal denotes the byte sequence that the escape rules prescribe, and literals with out-of-range escapes or excess length are rejected.", "quantifier": "every character sequence between quotes", "why_tests_cant": "Octal and hexadecimal escapes of variable length can be followed by any character.", "anchors": ["v0100/smlrc.c:GetCharValue", "v0100/smlrc.c:GetString"]}
{"id": "C36", "title": "type specifiers accept exactly the C combinations", "statement": "A sequence of char/short/int/long/signed/unsigned/float/void keywords is accepted exactly if it is one of the combinations C allows (for the supported types), in any order, and it denotes the type C assigns.", "quantifier": "every sequence of specifier keywords of any length", "why_tests_cant": "Orders and repetitions are unbounded.", "anchors": ["v0100/smlrc.c:ParseBase"]}
{"id": "C37", "title": "32-bit arithmetic helpers for 16-bit code are exact", "statement": "The library helpers that add, subtract, compare and convert 32-bit quantities held as two 16-bit halves give the exact two's complement (modulo 2^32) result for all operands.", "quantifier": "all pairs of 32-bit operands", "why_tests_cant": "2^64 operand pairs.", "anchors": ["v0100/srclib/lngadd.c:__lngAdd", "v0100/srclib/lngsub.c:__lngSub", "v0100/srclib/lngsl.c:__lngSignedLess", "v0100/srclib/lngul.c:__lngUnsignedLess", "v0100/srclib/lngeq.c:__lngEq", "v0100/srclib/lngltz.c", "v0100/srclib/lngfs.c", "v0100/srclib/lngts.c"]}
{"id": "C38", "title": "initialised data has exactly the declared size", "statement": "The bytes emitted for an initialised array or structure are the initialisers at their members' offsets with zeros everywhere else, and their number is exactly the object's size.", "quantifier": "every type and every initialiser list accepted for it", "why_tests_cant": "Nested aggregates and brace elision give unboundedly many shapes.", "anchors": ["v0100/smlrc.c:InitVar", "v0100/smlrc.c:InitScalar", "v0100/smlrc.c:InitArray", "v0100/smlrc.c:InitStruct"]}
{"id": "C39", "title": "strtok splits into the maximal non-delimiter fields", "statement": "Repeated strtok calls return, in order, exactly the maximal runs of characters that are not in the delimiter set, then NULL.", "quantifier": "every string and delimiter sets", "why_tests_cant": "Any mixture of leading, trailing and adjacent delimiters.", "anchors": ["v0100/srclib/strtok.c:strtok"]}
{"id": "C40", "title": "character classification and case mapping", "statement": "The is* functions return nonzero exactly for the characters the C locale assigns to the class, for every unsigned char value and EOF; toupper and tolower exchange the 26 letter pairs and leave every other value alone.", "quantifier": "every argument in the domain (EOF and 0..255)", "why_tests_cant": "The classes come from a packed bit table shared by all functions; a few probes per function do not show that no entry has a stray or missing bit, and the whole table is what the guarantee covers.", "anchors": ["v0100/srclib/ctype.c", "v0100/srclib/isalpha.c", "v0100/srclib/toupper.c", "v0100/srclib/tolower.c"]}
{"id": "C41", "title": "atoi value", "statement": "atoi skips white space and one sign and returns the number written by the following decimal digits whenever it fits in int, and 0 otherwise.", "quantifier": "every NUL-terminated byte string", "why_tests_cant": "Unbounded inputs; the hand-written overflow check must be exact at both ends of int.", "anchors": ["v0100/srclib/atoi.c:atoi"]}
{"id": "C42", "title": "section boundary symbols", "statement": "__start_x and __stop_x have the least address and the greatest end of the sections whose name matches x, where an underscore in x may stand for a dot; allcode__ and alldata__ stand for all code and all data; a name that matches nothing is reported.", "quantifier": "every list of input sections and every name x", "why_tests_cant": "Arbitrary sections and names; boundaries must stay exact with padding, empty sections and several sections of one name.", "anchors": ["v0100/smlrl.c:FindAllSections", "v0100/smlrl.c:Pass", "v0100/smlrl.c:FindSymbolAddress"]}
{"id": "C43", "title": "scanf reads exactly what its directives say", "statement": "For every well-formed scanf format made of white space, ordinary characters, %%, %n and the conversions d i u o x X p c s [, with any field width, assignment suppression and length modifier, and every input: each directive takes exactly the longest prefix of the input, within the field width, that is or begins a matching sequence; a matching sequence assigns its value reduced to the size of the object; a non-matching one ends the call; the returned value is the number of assignments, or EOF if the input ended before the first one.", "quantifier": "for all formats, all inputs, both int sizes (16 and 32 bits)", "why_tests_cant": "The scanner is a state machine with signs, prefixes, widths and end-of-input in every combination; the interactions (such as a 0x prefix cut by the field width, or the count after white space at the end of the input) are too many to enumerate and inputs are unbounded.", "anchors": ["v0100/srclib/doscan.c:__doscan"]}
{"id": "C44", "title": "printf prints floating-point numbers correctly rounded", "statement": "For every float, every combination of flags, every field width and precision, the conversions e, E, f, F, g and G print the sign, the digits of the exact value rounded to nearest (ties to even) at the requested place, the decimal point, the exponent, inf or nan and the padding that the C standard prescribes.", "quantifier": "every 32-bit pattern, every field width, every precision up to INT_MAX - 100, all flags, any contents of the uninitialised buffer", "why_tests_cant": "2^32 values times unboundedly many precisions; rounding errors show only at exact ties, at carries into a new digit and at the ends of the range of exponents.", "anchors": ["v0100/srclib/doprint.c:printff", "v0100/srclib/doprint.c:roundupf", "v0100/srclib/cvtdf.c:__cvtdif", "v0100/srclib/cvtdf.c:__cvtdff"]}
{"id": "C45", "title": "A declaration gives its name the type that C says", "statement": "For every sequence of declaration specifiers and declarator of C, of any nesting of pointers, arrays, functions with parameter lists, parentheses and typedef names, the compiler consumes exactly the declarator and enters its name and its type into the symbol table, with array and function parameters adjusted to pointers; and it accepts nothing else: no functions returning functions or arrays, no arrays of functions, of void or of arrays of unknown size, no parameters of type void except a lone (void), no text that is not a declarator.", "quantifier": "all declarators, all token sequences, all symbol tables", "why_tests_cant": "Declarators nest without bound and are written inside-out; abstract declarators, parentheses, typedef names and parameter lists start with the same tokens; only a proof covers every combination.", "anchors": ["v0100/smlrc.c:ParseDerived", "v0100/smlrc.c:ParseFxnParams", "v0100/smlrc.c:PushBase", "v0100/smlrc.c:ParseArrayDimension"]}
{"id": "C46", "title": "exprval keeps the meaning of expressions", "statement": "For every integer and pointer expression, exprval finds the type that C gives it, and the operators that it leaves for the code generator - with constants folded, loads, conversions, scaled pointer arithmetic and unsigned variants inserted and unreachable operands of &&, || and ?: removed - compute, in any order of evaluation, only values and side effects that C allows for the source expression, and have undefined behaviour only if that has.  Together with the code generator: the x86 code computes the value and the effects of the source expression.", "quantifier": "all expressions of any depth over integer, pointer and array types, all symbol tables, all memory states, both word sizes, signed and unsigned char", "why_tests_cant": "Every pair of types takes its own path through folding, promotion, scaling and operator selection, and side effects make the set of allowed outcomes depend on the order of evaluation; tests see one order, one type combination and one value at a time.", "anchors": ["v0100/smlrc.c:exprval", "v0100/smlrc.c:promoteType", "v0100/smlrc.c:nonVoidTypeCheck", "v0100/cgx86.c:GenExpr1"]}
{"id": "C47", "title": "The x86 code of a function body does what the body does", "statement": "For every body of a function whose behaviour is defined, the printed x86 code - labels, jumps, tests, case comparisons and the code of the expressions - runs as the C statements do, with an order of evaluation in each expression that C allows: if the body returns, the code comes to the epilogue with the returned value, converted to the return type, in the accumulator, with the stack and frame pointers as they were and the objects as the body leaves them; if the body never ends, neither does the code, and it passes the same states of the objects.  The labels in the code are distinct.", "quantifier": "all function bodies (nested blocks, if, while, do, for, switch, goto, break, continue, return) with all integer and pointer expressions, all memory states, both word sizes, terminating or not", "why_tests_cant": "It joins the parser of statements, the label allocation and the code generator of expressions for programs of any size and runs of any length, including infinite ones, and for every order of evaluation; tests run single programs to their end.", "anchors": ["v0100/smlrc.c:ParseStatement", "v0100/cgx86.c:GenExpr", "v0100/cgx86.c:GenJumpIfZero", "v0100/cgx86.c:GenJumpIfEqual", "v0100/cgx86.c:GenNumLabel"]}
{"id": "C48", "title": "The frame of a function and its calls", "statement": "Each local variable is put in whole words inside the frame of its function, apart from all variables that live when it is declared; the frame is exactly as large as it must be for that, and there is an error exactly if that is larger than the largest frame.  Parameters are where arguments are: the first lowest, each in whole words, above the return address and the saved frame pointer, with the value of the argument converted to the type of the parameter.  The printed prologue, body and epilogue, entered by a call, run as the body does; if it returns, the code goes on after the call with the value in the accumulator, the arguments gone from the stack, the frame pointer as it was, the objects as the body leaves them, and nothing else changed but memory under the stack pointer; if it does not, neither does the code.", "quantifier": "all nestings of scopes with variables of all sizes, all lists of parameters, both word sizes, all function bodies of C47, all programs around them, all states", "why_tests_cant": "Overlaps and overflows of offsets depend on sums of sizes near the limits of 32-bit arithmetic, and that a call keeps all other memory is a statement about all states; tests see a few frames.", "anchors": ["v0100/smlrc.c:AllocLocal", "v0100/smlrc.c:AddFxnParamSymbols", "v0100/smlrc.c:ParseDecl", "v0100/cgx86.c:GenFxnProlog", "v0100/cgx86.c:GenFxnEpilog", "v0100/cgx86.c:GenWriteFrameSize", "v0100/cgx86.c:GenGrowStack", "v0100/cgx86.c:GenMaxLocalsSize"]}
{"id": "C49", "title": "The tokens of a source text are those of C", "statement": "Every preprocessed source text that the lexical rules of C divide into tokens - the longest one at each place, separated by blanks, line ends and comments, with object-like macros, __FILE__ and __LINE__ replaced - is read as exactly these tokens, with their values and their line numbers; white space is skipped as far as it goes and rejected exactly if a comment is not closed; and nothing else is accepted.", "quantifier": "all texts, all tables of macros that do not lead back to themselves, both word sizes, both sizes of wchar_t", "why_tests_cant": "Tokens, comments and literals are of any length and stand next to each other in any combination; maximal munch, comment ends like **/, line ends like \\r\\n and macro texts meet in unboundedly many ways; the proof covers all of them at once.", "anchors": ["v0100/smlrc.c:1208-1281 SkipSpace", "v0100/smlrc.c:1307-1333 GetIdent", "v0100/smlrc.c:1801-1963 GetTokenInner", "v0100/smlrc.c:1966-2045 GetToken", "v0100/smlrc.c:952-985 rws, rwtk, GetTokenByWord"]}
{"id": "C50", "title": "Macros keep the tokens of their #define line", "statement": "The text stored for an object-like macro has the tokens of the body of its #define line, whatever blanks and comments are between them, and the name of a macro within its own text is left alone.", "quantifier": "all bodies of #define lines, all tables of macros", "why_tests_cant": "Bodies are of any length and mix tokens, blanks, comments and literals in any order; where white space is collapsed depends on every neighbouring pair of characters.", "anchors": ["v0100/smlrc.c:2205-2255 #define", "v0100/smlrc.c:1985-2030 GetToken, macro expansion"]}
{"id": "C51", "title": "MIPS code for expressions computes the source value", "statement": "For every integer expression without calls there is MIPS code; run from anywhere in a program with distinct labels it leaves in $2 the value that C gives the expression, in memory exactly the side effects that some evaluation order allowed by C has, and leaves the stack pointer, the frame pointer and the callee-saved registers alone, also if there are more intermediate values than registers; as a condition it jumps exactly if the value is (or is not) zero.", "quantifier": "every expression tree (constants, variables, arithmetic, comparisons, shifts, logical operators, conditional operator, comma, casts, assignments, increments), every program around the code, every initial memory and register contents", "why_tests_cant": "How GenPrep reorders operands, which operands become immediates, which comparisons fuse with jumps and when the eight temporaries spill to the stack depend on the shape of unboundedly many trees and on all 32-bit constants.", "anchors": ["v0100/cgmips.c:1062-1309 GenPrep", "v0100/cgmips.c:1311-1525 CmpBlocks, GenCmp", "v0100/cgmips.c:1545-2173 GenExpr0", "v0100/cgmips.c:989-1055 GenWregInc, GenPushReg, GenPopReg", "v0100/cgmips.c:682-938 GenReadIdent, GenWriteIdent, GenIncDecIdent and the like"]}
{"id": "C52", "title": "strftime, asctime and ctime write dates as C says", "statement": "For every broken-down time with members in their normal ranges and every format of C99 (in the C locale, with the modifiers E and O), strftime stores the text that the standard describes, ISO 8601 week numbers included, followed by a NUL, and returns its length, if that fits into the buffer; otherwise it returns 0 and stores nothing outside the buffer. asctime stores the 25 characters of the standard up to the year 9999, and ctime of a time up to the end of 2105 is asctime of the date and time which that many seconds after 1970 are.", "quantifier": "all broken-down times with members in their normal ranges, all formats, all buffer sizes, all times", "why_tests_cant": "Week numbers depend on the weekday and leap status of the year and its neighbours at both ends of all years, formats are unbounded, and each may be cut at any buffer size.", "anchors": ["v0100/srclib/strftime.c:27-340", "v0100/srclib/asctime.c:8-31", "v0100/srclib/ctime.c:8-11"]}
{"id": "C53", "title": "Executable files are loaded as the linker laid the program out", "statement": "When an ELF, a.out, flat, .COM or DOS .EXE file that the linker writes is read by a loader as the format is documented, every section of the program is in memory at the address that relocations use, with its contents, zeros or reserved memory for uninitialised data, code and data in the right kind of segment, below the stack where the format has one, in memory that the program owns; and execution starts at the entry point.", "quantifier": "all lists of sections, origins, stack sizes, entry points, and for DOS all load addresses with room", "why_tests_cant": "Sizes that end on or next to page, paragraph and 512-byte boundaries, missing data or uninitialised data, and the 64 KB and 4 GB limits combine in ways that sample programs do not cover; a wrong header is often noticed only by another loader or with other memory contents.", "anchors": ["v0100/smlrl.c:2367-2437", "v0100/smlrl.c:2439-2641", "v0100/smlrl.c:2643-2774", "v0100/smlrl.c:3442-3512"]}
{"id": "C54", "title": "Modules are linked into the program they make up", "statement": "When the linker makes an ELF file of modules and the file is loaded, every section of every module that is needed stands in memory at an address of its own, aligned as it asks for, in a segment with the right permissions; each relocated field in it is fixed by the value of the symbol it is for - the address of a section, the address of the definition in whichever module has it, or the boundary of sections for __start_x and __stop_x - at the address where the field really is; all other bytes are those of the module; and execution starts at the value of the entry point.", "quantifier": "all lists of modules with any sections, symbols and non-overlapping relocations of the four types, entry points and origins for which a file is made", "why_tests_cant": "Symbol resolution, layout, relocation and the file header each compute with addresses and indices of their own; an error in how they agree (a section of a module that is not needed, the order of relocations, a symbol found in another module first, padding counted in one pass only) shows only in programs of several modules with the right combination.", "anchors": ["v0100/smlrl.c:1258-1436", "v0100/smlrl.c:1476-1817", "v0100/smlrl.c:2048-2437", "v0100/smlrl.c:3962-3966"]}
{"id": "C55", "title": "Object files and archives are read as the objects that they hold", "statement": "When the linker reads an object file, or an archive of object files, it gets exactly the objects in it, in their order: every section with its name, flags, alignment, size, contents and relocations, and every symbol with its name, value, type and section number. Tables in archives are passed over, members with short and long names of both styles are read, and reading ends.", "quantifier": "all object files of less than 2 GB with any sections of the supported types, at any offset and with headers, tables and strings anywhere; all archives of any number of such objects and tables", "why_tests_cant": "Object writers lay files out in one or two ways; a wrong offset, a table of the wrong section, an odd size, a name length counted twice or a member skipped shows only for layouts that a test's assembler does not produce.", "anchors": ["v0100/smlrl.c:881-893", "v0100/smlrl.c:931-1166", "v0100/smlrl.c:1169-1256"]}
{"id": "C56", "title": "The MIPS code of a function body does what the body does", "statement": "For every body of a function whose behaviour is defined, the printed MIPS code - labels, jumps, tests, case comparisons and the code of the expressions - runs as the C statements do, with an order of evaluation in each expression that C allows: if the body returns, the code comes to the epilogue with the returned value in $2, with the stack and frame pointers and all other registers that expressions do not use as they were and the objects as the body leaves them; if the body never ends, neither does the code, and it passes the same states of the objects.  The labels in the code are distinct.", "quantifier": "all function bodies (nested blocks, if, while, do, for, switch, goto, break, continue, return) with all integer and pointer expressions, all memory and register states, terminating or not", "why_tests_cant": "It joins the parser of statements, the label allocation and the MIPS code generator, with its reordering of operands and its register stack, for programs of any size and runs of any length, including infinite ones; tests run single programs to their end.", "anchors": ["v0100/smlrc.c:ParseStatement", "v0100/cgmips.c:GenExpr0", "v0100/cgmips.c:GenJumpIfZero", "v0100/cgmips.c:GenJumpIfEqual", "v0100/cgmips.c:GenNumLabel"]}
{"id": "C57", "title": "The frame of a function and its calls on MIPS", "statement": "The printed MIPS prologue, body and epilogue of a function together do what the function does: it returns to where it was called, with the value in $2 and the caller's stack pointer, frame pointer and other registers that expressions do not use, and it changes no memory but the objects, its frame and the words that the caller left for arguments in registers.  Whether the caller has the arguments on the stack (nested calls) or the first four of them in registers, each parameter has the value of its argument converted to its type when the body begins.  After the code of a call, by name or through a pointer, the arguments and the room made for them are gone from the stack.  The return address is restored also where calls have changed $31.", "quantifier": "all functions with any number of parameters, any frame size and any body as in C56, all calls with any number of words of arguments, all memory and register states, terminating or not", "why_tests_cant": "The frame is written over at the end of the function, the registers with arguments are stored by a count from the declaration, and calls differ by nesting; a wrong offset shows only for some numbers of arguments, frame sizes or callees that use what was lost.", "anchors": ["v0100/cgmips.c:534-611", "v0100/cgmips.c:1658-1733", "v0100/smlrc.c:8368-8438"]}
{"id": "C58", "title": "Expressions from their text to code", "statement": "The lexer, the expression parser, the evaluator of expressions and the code generator fit together: if a text begins with the tokens of a C expression (behind white space and comments, with macros replaced) that has a meaning, and a token follows that can follow an expression, then the compiler reads it up to that token, finds its type and, unless it says that the expression is too long, makes code that leaves a value that evaluation of the expression may give, and in the objects what evaluation then leaves there, changing nothing else.  Every operator and keyword that the lexer tells apart is the one that the parser looks for under that spelling, and a type name behind a parenthesis is told from an expression.", "quantifier": "all texts of all expressions with a meaning (C46), all macro definitions, 16-bit and 32-bit x86 and MIPS, all limits of the stacks, all programs around the code, all states", "why_tests_cant": "Each part has its own codes for tokens, its own stack and its own limits; a test sees one text, and a token handed over under a wrong code or with a wrong value shows only in the expressions that have it.", "anchors": ["v0100/smlrc.c:217-300", "v0100/smlrc.c:1801-2020", "v0100/smlrc.c:2622-2830", "v0100/smlrc.c:2938-3020", "v0100/smlrc.c:5598-5775", "v0100/smlrc.c:6124-6157", "v0100/cgx86.c:2754-3260", "v0100/cgmips.c:1546-2220"]}
{"id": "C59", "title": "The preprocessor divides text into tokens as C does", "statement": "The lexer of the preprocessor performs the first three translation phases: CR LF, CR and LF all end lines, trigraphs (if enabled) are replaced, a backslash before the end of a line is deleted with it, also when it is itself a trigraph and also within tokens and comments; and then the text is divided from its beginning into white space, ends of lines, comments, numbers, names, character constants, strings, punctuators (with digraphs) and other single characters, always the longest that there is, and nothing is lost or made up.", "quantifier": "all texts, all settings of trigraphs, // comments and strict character set; tokens: all texts that can be so divided except those with universal character names and the defects recorded", "why_tests_cant": "An automaton of 37 states over 256 characters with up to three characters of lookahead and pushed-back tokens: a wrong cell shows only for one pair of neighbours, and splices can come between any two characters.", "anchors": ["v0100/ucpp/lexer.c:71-423", "v0100/ucpp/lexer.c:486-665", "v0100/ucpp/lexer.c:814-988", "v0100/ucpp/cpp.c:326-349"]}
{"id": "C60", "title": "Redeclarations are accepted exactly when C allows them", "statement": "A declaration of a name on top of the declarations of nested scopes is accepted if and only if no declaration of the name without linkage is in the same scope with it and its type is compatible with that of the last visible declaration of the object or function; its type in the symbol table then is the composite of both types. A member of a structure is accepted if and only if the structure has no other member of that name.", "quantifier": "all nested scopes, all declarations, all types of any nesting of pointers, arrays, functions and parameter lists, all places in the table; types with () only where the code agrees with C (else witnesses)", "why_tests_cant": "Two encoded types of unbounded nesting are compared in one pass while the table is changed and parameters are skipped in either of them, and the search jumps over parameter lists and scopes: a wrong jump shows only for particular neighbouring declarations.", "anchors": ["v0100/smlrc.c:7656-7734", "v0100/smlrc.c:7739-7899", "v0100/smlrc.c:8486", "v0100/smlrc.c:8705"]}
{"id": "C61", "title": "Mach-O executables are loaded as the linker laid the program out", "statement": "When a Mach-O file that the linker writes is read by a loader that obeys its load commands, every section of the program is in memory at the address that relocations use, with its contents or zeros, code in a segment that can be executed and not written and the rest in one that can be written and not executed; segments do not share pages, memory below the image cannot be accessed, the one thread starts at the entry point, and the symbol table in __LINKEDIT names the header and the entry point.", "quantifier": "all lists of sections, origins and entry points, with and without data and uninitialised data; programs that leave the last page of the address space free (else a witness)", "why_tests_cant": "The size of the header depends on the origin and on whether there is data, and shifts all code; ends at page boundaries, data that is only uninitialised, origin 0 and the end of the address space each take another path.", "anchors": ["v0100/smlrl.c:2776-3006", "v0100/smlrl.c:2025-2034", "v0100/smlrl.c:281-396"]}
{"id": "C62", "title": "Windows programs work at addresses other than the one they were linked for", "statement": "The linker puts a table of base relocations behind a PE file, of the size and at the place its headers tell, padded with zeros to the file alignment. Read by the rules of the format (blocks for pages, padding entries), it lists words such that, when the difference between the actual and the preferred address of the image is added to each of them, every section is what linking for the actual address would have made it: absolute fields follow, pc-relative fields and all other bytes stay. Import tables and zeros are left alone, and the only programs refused are those with a 16-bit address or a field without a symbol.", "quantifier": "all lists of placed sections, relocations, preferred and actual addresses (higher or lower, with wrap-around), and files", "why_tests_cant": "Windows loads a program elsewhere only when its address is taken; blocks end wherever the next field is in another page, with an odd or even number of entries, fields at the end of a page and sections out of order each give another table, and a wrong one is silent until the image moves.", "anchors": ["v0100/smlrl.c:3258-3400"]}
{"id": "C63", "title": "PE executables are loaded as they were laid out", "statement": "The PE file written by the linker, read by the rules of the format (signature, headers, contiguous page-aligned sections, sizes and file offsets), gives an image at the chosen base whose sections do not overlap and in which every input section stands at its address with its contents (zeros where it has none), readable, and writable or executable exactly if it was so in the object files. The program starts at its entry point. The import directories are those given. A file without a relocation table says that it must not be moved; a file with one says that it may be, and the table is in the image where the headers say.", "quantifier": "all lists of sections of all object files, orders of equal sections, image bases, entry points, import tables and lists of relocations, with zeros kept in the file or not", "why_tests_cant": "Which of the five PE sections exist, where each begins in memory and in the file, and how large zeros make the last one depends on which kinds of input sections there are and on their sizes and alignments relative to pages; a header that is off by a page shows only for some combination, and only on Windows.", "anchors": ["v0100/smlrl.c:1833-1979", "v0100/smlrl.c:3008-3213", "v0100/smlrl.c:3396-3440", "v0100/smlrl.c:2320-2360"]}
{"id": "C64", "title": "The import tables of Windows programs are what Windows expects", "statement": "The import tables in the object files hold addresses. In the file that the linker writes, every import descriptor, lookup table and address table holds the same places relative to the image, so that Windows, reading them by the rules of the format, finds the same libraries and functions; the time stamps, the forwarder chains and every other byte of the file are as they were. The directories in the header tell where the descriptors and the address tables are and how long they are. Programs without imports are left alone.", "quantifier": "all files, image bases, numbers of libraries and functions, and places of the tables, in any order in the file", "why_tests_cant": "The loops follow addresses found in the file they are changing: whether a table is found before or after its descriptor was rewritten, ends at the right zero, or is visited twice depends on the data of the program and its libraries, of which tests have a handful.", "anchors": ["v0100/smlrl.c:3174-3190", "v0100/smlrl.c:3214-3256"]}
{"id": "C65", "title": "strtod, strtof and atof read the number that the text begins with", "statement": "A text of blanks, a sign and a decimal number (with or without fraction and exponent) is read up to the end of the longest number it begins with, and the value is the single-precision number nearest to it, ties to even, with the sign; errno becomes ERANGE exactly when that is infinity. The words inf, infinity and nan are read in any case, the longest that stands there. A text that begins with none of these gives 0 and nothing of it is read. No text makes the function write past its buffers.", "quantifier": "all texts: any blanks, sign, digits before and after the dot, exponents, and whatever follows", "why_tests_cant": "Wrong rounding shows in a few of the numbers that lie next to the middle between two floats, and wrong endings only in texts with half an exponent, a lone dot or sign, or a word cut short; the decimal texts are infinitely many.", "anchors": ["v0100/srclib/strtof.c:strtof", "v0100/srclib/cvtfd.c:__cvtfd", "v0100/srclib/strtod.c:strtod", "v0100/srclib/atof.c:atof"]}
{"id": "C66", "title": "scanf's floating conversions take exactly the number in the field and store the nearest float", "statement": "After blanks, the conversions e, f and g take the longest piece of the input, within the field width, that is a number, an inf, infinity or nan in any case, or the beginning of one. If the piece is a number, the single-precision number nearest to it, ties to even, with the sign, is stored (or nothing, with the asterisk), for every exponent, and the character after it is left. If it is only a beginning (a sign, a dot, half an exponent part, part of a word), nothing is stored and the conversion fails. No input makes the scanner run on for ever, write past its buffer, or take more characters than the field width allows.", "quantifier": "all inputs and field widths: any blanks, sign, digits before and after the dot, exponents, words, and whatever follows", "why_tests_cant": "The scanner is an automaton with nine states over a stream with one character of pushback; mistakes hide where a field ends in the middle of a number, at the end of the input, and in exponents beyond the range of int, and the inputs are infinitely many.", "anchors": ["v0100/srclib/doscan.c:__doscan", "v0100/srclib/cvtfd.c:__cvtfd"]}
{"id": "C67", "title": "getenv returns the value of the first entry with the name", "statement": "For every environment (a block of entries ended by an empty one in DOS, a list of strings in Unix) and every name, getenv returns what follows the first equals sign of the first entry that has the name before it, and NULL if no entry has it (or, in DOS, if there is no memory for a copy). Names that are parts of other names, entries without equals sign and values with equals signs do not confuse it, and it reads nothing outside the environment.", "quantifier": "all lists of entries, names, and bytes after the block; in Unix all names without equals sign", "why_tests_cant": "Environments are arbitrary lists of strings; mistakes hide in names that are prefixes of each other, entries without or with several equals signs and the last entry of the block.", "anchors": ["v0100/srclib/getenv.c:getenv"]}
{"id": "C68", "title": "rand runs through all its states, and both libraries give the same numbers", "statement": "rand gives numbers from 0 to RAND_MAX. The 16-bit and the 32-bit library give the same numbers from the start and after the same seed, and without srand those after srand(1). The state comes back after exactly 2^32 calls, and every state is reached from every other one.", "quantifier": "all states, seeds and numbers of calls", "why_tests_cant": "The period is 2^32 calls from each of 2^32 states, and the two libraries would have to be compared over all of them.", "anchors": ["v0100/srclib/rand.c:rand", "v0100/srclib/srand.c:srand"]}
{"id": "C69", "title": "exit calls the functions registered with atexit in reverse order", "statement": "Of any sequence of registrations the first 32 succeed and the others fail with -1. exit calls the registered functions in reverse order, each as often as it was registered; functions registered while a function is called come next, the last first, before those registered earlier, as long as no more than 32 calls are made in all. _Exit calls none.", "quantifier": "all sequences of registrations, all functions by what they register when called", "why_tests_cant": "Sequences of registrations and functions that register others in turn are unbounded trees; tests take one or two.", "anchors": ["v0100/srclib/atexit.c:atexit", "v0100/srclib/atexit.c:iterator", "v0100/srclib/exit.c:__ExitInner"]}
{"id": "C70", "title": "strerror gives the number in decimal for every int", "statement": "For every value of int, strerror returns \"Unknown error \" followed by the decimal text of the number with its sign and without leading zeros; neither of its two buffers is overrun.", "quantifier": "all values of a 16-bit and of a 32-bit int", "why_tests_cant": "The longest texts fill the buffer to the last byte, and the least int has no positive counterpart; a test of few numbers misses either.", "anchors": ["v0100/srclib/strerror.c:strerror"]}
{"id": "C71", "title": "Command lines are divided into arguments by Microsoft's rules", "statement": "For every command line, __ArgParser__ ends and stores pointers to the arguments that the rules of Microsoft's library give (backslashes before quotes, quoted parts, doubled quotes in them, blanks), in order, each ended by a 0, also when the output overwrites the line as in DOS. It writes no more bytes than the line has with its 0 and no more pointers than there is room for. Every line has exactly one list of arguments by the rules, and every list of arguments can be passed by quoting.", "quantifier": "all command lines, places of line and output (the same, before or after), lists of arguments", "why_tests_cant": "Runs of backslashes, quotes and blanks combine without bound, and writing over the text that is still to be read goes wrong only for particular combinations.", "anchors": ["v0100/srclib/c0.c:__ArgParser__"]}
{"id": "C72", "title": "tmpnam gives names of files that do not exist, all different", "statement": "For every file system (which may change between questions) and all values of TEMP and TMP, the directory found ends with a slash and exists or is the current one (TEMP first, then TMP); names in it fit L_tmpnam. A name returned has the next free number in the directory and the system said that there is no such file; NULL is returned only if all 10000 names exist or another error was reported; up to 10000 calls give different names.", "quantifier": "all answers of the system over time, values of the two variables, counters and numbers of calls", "why_tests_cant": "Directories at the limit of the length, with and without slashes, and the counter's wrap-around need particular environments and thousands of files.", "anchors": ["v0100/srclib/tmpnam.c:TryPath", "v0100/srclib/tmpnam.c:TryEnvPath", "v0100/srclib/tmpnam.c:__tmpnam"]}
