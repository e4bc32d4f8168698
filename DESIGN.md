# Formal model of SmallerC in Lean 4 — design

The code is C; nothing of it is compiled or run here.  Each modelled C function
is transcribed by hand, statement by statement, into a total Lean function, and
the properties of `properties.jsonl` are proved of those functions for all
inputs.

## Conventions

* One directory `lean/Verif/<Topic>/` per topic:
  `Model.lean` (transcribed code, every definition cites file and lines),
  `Spec.lean` (an independent specification in mathematical terms),
  `Lemmas*.lean` (helper lemmas), `Props.lean` (the property theorems and, beside
  each, an `example` showing a concrete non-trivial instance of its hypotheses).
* C `int`/`unsigned` of the target are `BitVec 32`/`Nat`/`Int` with explicit
  wrapping; undefined behaviour and the compiler's `error()` exits are distinct
  outcomes (`none` / `Except.error`), never a silently chosen value.
* `while`/`for` loops are structural or well-founded recursions, so that
  totality of the model is termination of the modelled code (where a loop is
  driven by fuel, the theorem shows the fuel is never exhausted).
* Pointers into a buffer are indices; memory is a function or a list of bytes.

## Plan per property

| id | what is modelled | how it is proved |
|----|------------------|------------------|
| C01 | `strtol.c`, as a function of the character list and base, on 32-bit wrapping arithmetic | spec: maximal digit run and clamp; loop invariant relating wrapped accumulators to the exact value |
| C02 | `strtoul.c` | same |
| C03 | `memcpy/memmove/memset` over memory `addr -> byte` | induction on the loop counter, both directions |
| C04 | `memcmp/strcmp/strncmp` | induction; spec is lexicographic order |
| C05 | search functions over NUL-terminated lists | induction; spec by "first index such that" |
| C06 | `qsort.c` (heap sort) over an array of abstract elements | heap invariant, sift-down lemma, permutation by swaps |
| C07 | `bsearch.c` index arithmetic | interval invariant |
| C08-C10 | `malloc/free/realloc/calloc` over a word/byte memory with boundary tags | heap = list of blocks tiling the arena; each operation refines a block-list transformer; invariant by induction over histories.  The growing (Linux) variant has a genuine overflow defect, shown by a counterexample theorem |
| C11 | integer branch of `__doprint` | spec from the C standard's wording; digits by `Nat.digits`-like spec |
| C12 | `__breaktime`, `__buildtime`, day tables | spec = proleptic Gregorian day count; arithmetic over all instants |
| C13-C15 | `FILE` buffer operations over an abstract file and an adversarial `read` | refinement to "remaining byte list"; counterexample theorem for the `SEEK_CUR` defect |
| C16 | `GetNumber` integer path | spec = positional value, representability; wrap-around check proved equivalent to overflow |
| C17 | `d2f` with byte chains | spec = nearest float with ties to even, stated over exact rational comparison; chain = natural number; loop invariants |
| C18 | digit collection of `GetNumber` and `strtof` | negation with a concrete witness (defect) plus the positive theorem for at most 112 digits |
| C19 | macro table bytes | refinement of bytes to association list, by induction over histories |
| C20 | identifier table bytes | refinement to a list of strings with offsets |
| C21 | the symbol table: all declarations, `FindSymbol` etc. over syntax trees | refinement to C scopes (partial) |
| C22 | member layout arithmetic | induction over the member list |
| C23 | `truncInt`, `truncUint`, folding arms of `exprval` | case analysis with `BitVec`/`Int` modular lemmas, induction over trees |
| C24 | `expr`/`exprUnary` operator-stack parser | printing relation from the C grammar; induction over trees with stack invariant |
| C25 | the stack of `expr`, `GenFuse`, `GetOperandInfo`, `GenExpr1` and an x86 machine semantics | fused stack as a function of the tree; simulation of a small-step semantics by induction over trees |
| C26, C27 | `ParseStatement` emission and a label machine | big-step/small-step simulation |
| C28 | `pushPrep/popPrep` automaton | invariant by induction over the directive list |
| C29, C30 | `RelocateAndWriteSection`, `Relocate` | refinement streaming = whole-section patching |
| C31 | `FindAllSymbols` fixpoint | least fixpoint by invariant and termination measure |
| C32 | `SectDescCmp`, layout loop of `Pass` | total preorder; induction over sections |
| C42 | deferred symbols of `FindAllSections`, `FindSymbolAddress` | hull invariant of the layout loop |
| C43 | `__doscan` | specification by longest viable prefixes; automaton invariant of the number loop; simulation by induction over directives |
| C44 | `__cvtdif`, `__cvtdff`, `printff` | chunks as a number in base 2^16; digits as `floor(x * 10^t)`; rounding proved in the rationals |
| C45 | `ParseDerived`, `ParseFxnParams`, `PushBase`, `ParseArrayDimension` | syntax trees of declarators with text and type; parsing proved for every tree, and a tree found for every parse |
| C46 | `exprval` (model of C23) against a specification of C's typing and implicit conversions; trees of C25 | refinement relation between trees (simulation up to undefined behaviour), congruence and algebraic laws, induction over expressions; composed with C25 |
| C47 | `ParseStatement` (model of C26) with expressions of C46 and the instructions of C25; `return` | composition of the two simulations, one step of the body at a time; progress measure for infinite runs |
| C48 | `AllocLocal`, scopes of locals, `AddFxnParamSymbols`, `GenFxnProlog`, `GenFxnEpilog`, `GenGrowStack`, `call` | 32-bit arithmetic of offsets against exact sums, induction over scopes; the machine of C25 extended by `call`, `ret`, `leave`, into which runs of C47 are lifted |
| C49 | `SkipSpace`, `GetIdent`, `GetTokenByWord`, `GetTokenInner`, `GetToken` | an inductive relation between texts and token sequences (gaps, maximal munch, literals from C16, C17, C20, C21), each rule shown to be one step of the code; the other direction by inversion of each step |
| C50 | `GetToken`: `#define`, macro expansion | the stored text agrees with the line up to the next gap, which is a space; counterexamples for literals and self-reference |
| C51 | `GenPrep`, `GenCmp`, `GenExpr0` and the functions that they call (cgmips.c), a MIPS32 machine semantics | the reordered stack as a function of a tree with marked shapes; simulation of the small-step semantics of C25 by induction over trees, with temporaries in registers or on the stack |
| C52 | `strftime`, `asctime`, `ctime` | an inductive relation between formats and texts; ISO weeks specified by the Thursday of the week; induction over formats; `asctime` from the theorem about `printf` |
| C53 | `RwElf`, `RwAout`, `RwFlat`, `RwDosExe` | loaders that read the bytes of the file are the specification; facts about page and paragraph padding as an invariant of the layout loop of C32 |
| C54 | the linker as a whole for ELF: symbols, layout, relocations, file | C31, C32, C42, C29/C30 and C53 joined on the same modules; the layout is shown not to depend on contents, so the addresses of the first pass are those of the second |
| C55 | reading object files and archives | files are described by a relation between bytes and an abstract object that leaves all offsets open; reading is shown to find the object, also at an offset inside an archive |
| C56 | C26 and C46 as in C47, with the code generator and machine of C51; `GenJumpUncond`, `GenJumpIfEqual`, `GenJumpIfZero`, `GenJumpIfNotZero` (cgmips.c) | the simulation of C47, one step of the body at a time, on the other machine; its machine-independent part is shared |
| C57 | `GenFxnProlog`, `GenWriteFrameSize`, `GenFxnEpilog`, `GenGrowStack`, the case of `')'` (cgmips.c) | as C48: the machine of C51 extended by `jal`, `j` with a register, into which runs of C56 are lifted; the memory in which the body begins is spelled out, and the values of parameters in it |
| C58 | `GetToken`, `expr`, `exprval`, `GenExpr` one after the other; the token codes (smlrc.c) | composition of C49, C24, C46/C47 and C25 or C51; what the tokens of a text are in the grammar is given by spelling, apart from the codes that the two models have |
| C59 | `read_char`, `next_char`, `read_token` and the table `cppms` (ucpp/lexer.c) | translation phases 1 to 3 of C: ends of lines, trigraphs and spliced lines as functions on texts, the preprocessing tokens and comments as an inductive definition of what a text may begin with, and a division always into the longest; the automaton's table is checked for all 256 characters in each state |
| C60 | `compatCheck2`, `CheckRedecl` (smlrc.c) | compatible and composite types of C as recursive definitions on types, linkage and scopes as lists of declarations; how declarations are written into the symbol table is that of C45 |
| C61 | `RwMach` (smlrl.c) | a loader that obeys load commands one after the other is the specification; the facts about pages of C53 |
| C62 | the relocation table in `RwPe` (smlrl.c) | a reader of the blocks of the table and a loader that adds the difference to the words listed are the specification; what a section must be at an address is `Final` of C54 |
| C63 | `RwPe` (smlrl.c): headers and layout | a loader written from Microsoft's document of the format is the specification; every placed section must be held by one of its segments |
| C64 | import tables in `RwPe` (smlrl.c) | one relation between files and lists of libraries, with the number added to each place as parameter: the linker takes it from the image base to 0 |
| C65 | `strtof`, `strtod`, `atof`, `__cvtfd` | grammar of C99 7.20.1.3 apart from the scanner; digits, exponents and rounding from C17, as the loops have the same text |
| C66 | `__doscan`, floating conversions | longest piece within the field width, apart from the automaton; lemma per part of the number on runs of the automaton, composed; conversion shared with C65; invariant and rank for all inputs |
| C67 | `getenv` (DOS, Unix) | entries and values apart from the byte loop; induction over the entries of the block |
| C68 | `rand`, `srand` (16-bit, 32-bit) | simulation of the one library by the other; powers of the step by induction, minimal period from Mathlib |
| C69 | `atexit`, `iterator`, `__ExitInner` | order of calls as an inductive relation on functions and what they register; induction over it |
| C70 | `strerror` | decimal text as a predicate apart from the loop; induction over the number of digits |
| C71 | `__ArgParser__` | rules of the library as inductive relations on texts; runs of the machine by induction over a derivation, memory after it as a list of bytes put at the output |
| C72 | `TryPath`, `TryEnvPath`, `__tmpnam` | names as directory, number and suffix; the system's answers as a function of time; induction over the tries |
| C33 | `nhash.c` trees | inductive trees, refinement to a finite map |
| C34 | `eval_shrd` | printing relation and induction over trees |
| C35 | `GetCharValue`, `GetString` | induction over the characters |
| C36 | specifier loop of `ParseBase` | invariant by induction over keyword sequences |
| C37 | `lng*.c` | modular arithmetic |
| C38 | `InitVar/InitArray/InitStruct/InitScalar` emission | induction over types |
| C39 | `strtok.c` | induction over the string |
| C40 | `__chartype__` table and the `is*`/`to*` functions | check of the whole finite table |
| C41 | `atoi.c` | loop invariant with wrapping accumulator |

## Trusted base

* The Lean 4.33.0 kernel.
* Axioms: at most `propext`, `Classical.choice`, `Quot.sound` (checked with
  `#print axioms`; see the end of this file).
* The transcription of the C code into the `Model.lean` files (by hand, with line
  citations), and the reading of C semantics used for it.
* The specifications in `Spec.lean`.

## What is not modelled, by topic

* Stdio: the CR/LF translation of text streams on DOS and Windows, the string
  streams used by `sprintf`/`sscanf`, the flushing of `stdout` when `stdin` is
  read, and `fclose` (which is `fflush` plus releasing memory).  The operating
  system is a byte array with a position and an arbitrary plan of short reads,
  short writes and errors.  The defect witnesses use a buffer of a few bytes.

* Number: the host's `unsigned` has 32 bits; the digit counter `mexp` is an
  unbounded integer.  The `NO_FP` variant and `strtof` are not modelled (the
  latter repeats the same digit collection).

* Macro: the whitespace collapsing of `#define` bodies before
  `AddMacroExpansionChar`; length bytes are read as unsigned (proved to be at
  most 127).  Ident: parsing itself; the operations on the table appear as an
  arbitrary sequence.  Prep: the lexing of the directive lines, `#include`,
  `#line`, `#pragma`; a macro environment is the set of defined names.

* Layout: types are trees rather than stretches of the syntax stack; the host's
  `unsigned` has 32 bits; structures declared inside `sizeof` (where members of
  incomplete type are let through) are left out.  Function types as members do
  not occur (they are rejected earlier).

* Specif: only the arithmetic specifiers and `void`; `const`, `volatile`,
  `auto`, `register`, `restrict` never reach `ParseBase` (`GetToken` drops them),
  structure, enumeration and typedef bases are not in this model.  `double` and
  `long double` are synonyms of `float`, as the code has it; on 16-bit targets
  `float` is let through by `ParseBase`.

* Lit: text that is compiled (tokens are not being skipped); white space, comments
  and tokens between adjacent literals are an arbitrary function `next`.  The
  assembler text is that of `cgx86.c`; its reading is a small specification of
  `db` lines.  Initialisers of arrays by literals are not part of this topic.
* Reloc: sections up to 2^32 - 1024 bytes; the relocation list is sorted (the code
  sorts it with `qsort`, C06); the buffer of 1027 bytes is modelled as the bytes of
  it that belong to the section, so touching another byte is undefined.  The
  address of a global name (`FindSymbolAddress`) is a parameter here and the
  subject of Link.
* Link: modules are given by the global names they export and import, in table
  order; reading ELF files and archives (`loadElfObj`, `loadMeta`) is not modelled
  apart from the symbol table compaction in Reloc.
* Sect: sections of type PROGBITS and NOBITS of all needed modules in one list; it is
  assumed that sections of other types (symbols, strings, relocations) do not have
  the name of an allocatable section.  The bytes of a section are those of C29;
  `qsort` is any function that sorts (C06; instance `sorts_isort`).  The stack pseudo
  section and the file headers (`RwPe`, `RwElf`, ...) are left out.
* Parse: `expr` and `exprUnary` with both stacks. A parenthesised type name (read by
  `ParseDecl`) is one token, the place of a type in the syntax stack is its value; the bytes of
  string literals are in Lit. The recursion of the code is bounded by fuel, and the theorems say
  that from some amount on it makes no difference. The parser accepts more than the grammar
  (`a + b = c`): what it does with such input is not stated; `exprval` rejects it later.
* Expr: the whole of `exprval` apart from floating point, structures, functions and
  calls, string literals and `__func__`; the model works in place on the expression
  stack as the code does (array access outside it is undefined).  Types are trees.
  `exprval_ev` states what it does to the stack for every expression, constant or
  not; it allows the outcome "expression too long", which the code raises when the
  array of 129 entries is full.  When that happens is not proved: a model with a
  smaller array (64 entries) satisfies `c23_fold` too; only one too small for the
  examples beside it is noticed.
  C23 takes a constant expression as `expr` leaves
  it (that is C24).
* Stmt: `ParseStatement`, `ParseBlock` inside a function, `AddCase`, `AddGotoLabel` and the
  part of `ParseDecl` around a function body.  Expressions and declarations are one token
  each; an expression is given by what stands on the stack when `GenExpr` is called and by
  whether it is constant, and its meaning is a parameter of the theorems (any state, any
  effect, may not end).  That a constant expression has its value is a hypothesis
  (`ConstOk`, that is C23).  Checks of types, the conversion of the returned value, `asm`,
  `#pragma` and `_Static_assert` are left out.  The machine has labels, jumps and one
  accumulator; C25 is about the code of expressions.  C26 is stated for every tree; that
  token sequences which no tree gives are rejected is not stated.
* Nhash: all of nhash.c; the memory is a partial
  map from pointers to nodes, so that each access through `NULL` or to freed memory is seen.
  The block of `ident` is part of the node.  `getmem` does not fail and returns memory not in
  use; `deldata` frees the item and does nothing else.  The loops have fuel; twice the number
  of calls is shown to be enough.
* Eval: `eval_expr` and what it calls, with the native arithmetic of arith.c.  The width is 64,
  or 32 when ucpp is compiled by Smaller C (config.h:225-237); `int` has 32 bits, signed right
  shifts are arithmetic and conversions to signed types wrap, as on all hosts.  `defined`, assertions and macros are
  replaced before; other names are 0.  White space is gone; warnings and the
  table of transient characters (null by default) are left out.  The simulated arithmetic of arith.c
  (lines 757-1450, not used by default) is not modelled.  Multicharacter constants are
  outside the specification.

* **Scope** (C21): the model runs over syntax trees that contain only what matters for scopes:
  declarations with all declarators, structures, unions, enumerations, parameter lists, type
  names in expressions, the names in expressions in source order, blocks, `for` declarations
  and function definitions.  The parser that makes the trees (in part C24), the checks of
  types and of redeclarations (`CheckRedecl`), labels, `__func__`, bit fields, the hidden
  parameter of functions that return structures, and the limits of the table are not in it.
  What the expression of an array dimension or of a constant initialiser declares (undeclared
  functions) is dropped in the specification as in the code.

* **Init** (C38): all of `InitVar`, `InitScalar`, `InitArray` and `InitStruct`, over lists of tokens
  in which a constant expression is one token with its value, and over type trees with explicit
  offsets (`c38_types` ties them to C22).  Not modelled: conversions between integers and
  `float`, the type checks of `InitScalar`, the overflow check on the length of strings, the
  text of the emitted directives, the deferred storage of string literals that pointers refer
  to, and the copy of an initialised local aggregate to the stack.
* **Cg** (C25): `GetOperandInfo`, `GenFuse` and `GenExpr1` of cgx86.c with the functions that they
  print instructions with, for words of two and of four bytes.  Not modelled: function calls
  (`(`, `,` and `)` on the stack), structures passed and returned, the output formats "huge" and
  "unreal" (segmented addresses, `GenRegB2Seg`), inline assembly, the older generator `GenExpr0`
  (compiled only with `CG_STACK_BASED`), cgmips.c, and aborting when `STACK_SIZE` is exceeded.
  The trees are what `exprval` leaves: the types and the conversions that it inserts are already
  there as operators, and the operands of && and || are comparisons, 0, 1 or converted to truth values
  (`E.isBool`); that `exprval` inserts the right ones and folds constants correctly is C46.  `tokNumInt` and `tokNumUint` are one token.
  The machine is the part of the x86 that occurs in the output, written down from the manuals, with
  flat memory (`ds = ss`) and mnemonics rather than encodings; an instruction that would be assembled
  to something else than its mnemonic says is out of sight.  The meaning of expressions is a
  small-step semantics in which unsequenced operands are evaluated in any order, interleaved in any
  way, signed overflow wraps around, and accesses outside of objects, division by zero, the quotient
  that overflows, and shifts by the width or more are undefined.  The theorem says that the code does
  what one of the orders does, provided that none of them is undefined; `c25_progress` says that the
  semantics is never stuck otherwise, and `c25_pure` gives the single value of expressions without
  side effects by a recursive function.
* **Scan** (C43): `__doscan` of doscan.c over the bytes still to be read, with 16-bit and 32-bit
  `int`, all conversions but the floating ones (`%e %f %g`, outcome `float`; they are C66, and not
  composed with this), `%lc`-style
  modifiers as the code treats them, `%n`, suppression and field widths.  Signed overflow of a
  field width is undefined behaviour (`ub`).  Not modelled: where the characters come from
  (`fgetc` and `ungetc` are the head of the byte list), reading errors other than the end of
  the input, the objects that are assigned to (a store is recorded with its size and value),
  and the deprecated case of an input of `INT_MAX` characters and more.
* **Fprint** (C44): `__cvtdif`, `__cvtdff` of cvtdf.c, `roundupf` and `printff` of doprint.c, for the
  32-bit `float` (`double` is the same type).  A finite `float` is its value times 2^149, a
  natural number; `modff`, `frexpf` and `ldexpf` are x87 assembly in the library and are modelled
  by what they compute (an inexact or overflowing `ldexpf` is an error outcome, proved not to
  occur), and so is `rev`.  Not modelled: writing the characters (`__fputc`), the joining of
  `printff` with the format scanner of `__doprint` (C11), precisions of `INT_MAX - 100` and more.
* **Declr** (C45): `ParseDerived`, `ParseFxnParams`, `PushBase`, `ParseArrayDimension`, `DeleteSyntax` and
  `InsertSyntax` of smlrc.c, and the enum-to-int step of `ParseDecl`.  Declaration specifiers are one token
  (C36), a constant dimension is one token with its value (C24), an identifier carries the typedef that it
  names (C21).  A type is written into the symbol table as the entries `Ty.enc`.  Not modelled: the rest
  of `ParseDecl` (linkage, redeclarations, storage, initialisers), `__interrupt`, bit-fields, the overflow of the
  symbol table, the restriction on structures of the configuration `NO_STRUCT_BY_VAL`.

* **Trans** (C46): nothing new of the compiler is modelled: `exprval` is the model of C23 and the code
  generator that of C25; `tk` translates the tokens of one into those of the other.  The specification
  `den` gives expressions of integers, pointers, arrays, locals, globals and enumeration constants a type
  and a tree; it follows C99 6.5 except that assignments and comparisons between different pointer types are
  allowed without a cast, as the compiler does (with a warning at most).  It gives no meaning to: function calls, structures,
  `float`, string literals, arithmetic on pointers that `?:` makes of a null pointer constant (undefined
  in C as well), null pointer constants other than 0 and `(void *)0`, `?:` between `void *` and another pointer unless the
  `void *` is a null pointer constant or an object, arrays as right operands of a comma (`c46_comma_defect`).
  Signed overflow wraps, as in C25.  `c46_compile` joins the parser of C24, `exprval` and the code generator: `lx`
  and `toE` translate the tokens and trees of C24; `sizeof` of a type name is left out there.
* **Fn** (C47): the model of statements of C26, with items for expressions: an item is a meaning, the tree
  that the code generator gets, and a proof that the tree refines the meaning; `c47_exprval` and
  `c47_return` show that what `exprval` and the code for `return` leave on the stack is an item.  The
  numbers of labels in the output are arbitrary (`ρ`), as `LabelCnt` is also counted up inside expressions;
  the theorem asks for distinct labels in the whole program, and `c47_labels` tells where the labels come
  from.  Modelled in addition: what `GenNumLabel`, `GenJumpUncond`, `GenJumpIfZero`, `GenJumpIfNotZero`,
  `GenJumpIfEqual` print, the tokens `tokIf`, `tokIfNot`, `tokReturn` on top of the stack, and the
  conversion to the type that the function returns.  Not modelled: prologue and epilogue, allocation of
  local variables (their addresses are in the trees), structures, floating-point types, calls.

* **Frame** (C48): `AllocLocal` and `AddFxnParamSymbols` work on 32-bit numbers as the compiler does; declarations
  are a tree of variables and scopes (blocks, `for` with declarations, temporaries of one expression).  Sizes are
  given (C16).  The machine is that of C25 with `push bp`, `mov bp, sp`, `sub sp`, `leave`, `ret` and `call`; a `Code`
  gives addresses to instructions, and a call needs only that its own return address leads back to it.  Calls inside of
  expressions are not in C25 and C46, so a body (C47) makes no calls itself; `c48_call_partial` is about a call of such
  a function from any program.  Not modelled: probing of the stack for Windows, interrupt functions, huge and unreal
  models (but for the limit on frames), passing structures by value (but for their places), MIPS.
* **Lex** (C49, C50): the text is a list of bytes which ends at the first NUL; the character queue of the compiler (its
  refills, the limit "Too long expansion") is not modelled, an expansion is put in front of the text followed by a space as
  `PrepareMacro` does. Directives other than the body of `#define` are C18 and C19; a `#` ends the model with an error. Line
  splicing, trigraphs and digraphs are not done by smlrc (ucpp does the first two). The spec of number literals demands
  that the whole preprocessing number is a literal (`NumEnd`) and has at most 112 significant digits (C17); in the
  direction "nothing else is accepted" (`c49_only`) number literals are those `GetNumber` accepts, and names of macros,
  `__FILE__` and `__LINE__` do not occur. `__FILE__` stands for the file name between quotes, backslashes unescaped, as in the code.

* **Mips** (C51): expressions, their stack and their meaning are those of C25.  Modelled: `GenPrep` with the order of
  operands, `GenWregInc`, `GenPushReg`, `GenPopReg`, `GenCmp`, `GenRead…`, `GenWrite…`, `GenIncDec…`, `GenPostIncDec…`,
  `GenExpr0`, `GenJumpIfZero`, `GenJumpIfNotZero`, in the configuration without `REORDER_WORKAROUND` and `DONT_USE_SEH`.
  Not modelled: calls (so `GenFxnProlog`, the argument area, saving of temporaries around calls), structures, floating
  point, `switch`.  The machine takes the instructions as the assembler
  does: it fills delay slots, and makes several instructions of one with a large constant, with `$1`; accesses need not be
  aligned; memory is little-endian; division by zero, or of the least number by −1, has no next state.  `typed` says that
  `void` expressions are not operands (C24's parser and `exprval` see to that, C46 is about it; it is a hypothesis here).

* **Ftime** (C52): the C locale is the only one; `%z` and `%Z` give no text (there are no time zones).  The members of the
  broken-down time are in their normal ranges (`Normal`), as `gmtime` and `mktime` make them (`c52_gmtime`).  `asctime` is
  given `sprintf` as modelled for C11.  Unlisted conversions are undefined in C and are not in `Fmt`.  The time zone is UTC.
* **Exe** (C53): `RwElf`, `RwAout`, `RwFlat` and `RwDosExe` after `Pass` (C32), as functions from the sections to the bytes of the
  file.  The entry point is any function of the layout (symbols are C31 and C42).  The loaders of Spec.lean are written from the
  documents of the formats.  `RwMach` is C61, `RwPe` C62 and C63.  Not modelled: the DOS stub before an a.out file and what its relocation tables
  contain (any bytes here); the symbols for the stack of the DOS formats; failures of the file system; hosts that are not
  little-endian (the code writes structures as they are in memory).  Relocations are applied to the contents in C30; here the
  contents are given.
* **Whole** (C54): `main` from `FindSymbolByName` to `RwElf` on modules that have been read: the models of `Link`, `Sect`, `Reloc` and `Exe` composed,
  with `FindSymbolAddress` and the symbol search of `Relocate` on the modules themselves.  A module has one symbol table and at most one relocation
  section for a section (ELF has no more; the code takes the first relocation section and searches all symbol tables).  A name is a function
  of its offset in the string table.  The two calls of `qsort` are parameters with what C says of them.  All symbols of a section are resolved before its first
  field is written; the outcomes differ only in which of several errors is reported.  Hypotheses of the theorem (`Inputs`): sizes of 32 bits, sections with
  contents of at most 4 GB - 1 KB (C29), relocations of the four known types inside of their sections that do not overlap, and sections of equal
  names all with or all without SHF_ALLOC (else see the defect of C32).  Not composed: the other output formats.
* **Objf** (C55): `loadElfObj` and `loadMeta`. A file is a list of bytes; `fseek` and `fread` are as C says, files have less than 2 GB, the host is little-endian with the structure
  layout of the ELF specification. Names without a NUL, links to sections of the wrong kind and relocations for another symbol table are undefined behaviour in the model (`.ub`); the
  hypotheses of C55 (`Encodes`) exclude them, as the format does. The symbol table is kept as in the file: throwing away local symbols is C30 (`Reloc.compact`), sorting relocations is
  C54. Not modelled: verbose output, memory running out, objects without a symbol table in `Encodes` (the model reads them).
* **Mfn** (C56): as Fn, with the MIPS code generator of C51 in place of the x86 one.  An item now also says that the
  tree does not use values of type `void` (`Mips.typed`), which `cg_typed` proves of all trees that `exprval` leaves.
  `GenWreg` is `$2` between expressions.  Not modelled: prologs and epilogs, calls, delay slots (the assembler's).
* **Mframe** (C57): as Frame, for MIPS.  Arguments are words that the caller has ready, on the stack or in `$4` to `$7`;
  the code that works them out is not modelled beyond C51 (nor is `GenWreg` being another register than `$2` meanwhile).
  The body makes no calls itself (as in C56); the code around it is modelled with and without calls (`leaf`), and
  `c57_return` is about any state at the end of the body, also with another `$31`.  Parameters are integers and pointers; the count of
  registers to store is that of parameters, not of words (the compiler's own TBD comment), which matters only for structures.
  `$31` gets the number of the next instruction through `Code`, as the return address does in Frame; delay slots are the
  assembler's.

* **Text** (C58): composes Lex, Parse, Trans/Fn and Cg or Mips; what those leave out is left out here.  Tokens are read
  all at once, while the parser calls `GetToken` when it needs the next one; in an expression the two are the same since the
  parser changes nothing that the lexer looks at, but for `ParseDecl` in type names.  Type names consist of the words of
  arithmetic types and stars; `tn` says under which number `ParseDecl` leaves the type, and `c.env` what it is (C36, C45 are
  about `ParseDecl`).  Names of types (`typedef`), structures, arrays in type names, strings, wide characters and
  floating-point constants are no expressions with a meaning in Trans.
* **Ulex** (C59): `read_char`, `next_fifo_char`, `char_lka1/2`, `next_char`, `discard_char`, the table `cppms`, `init_cppm` and
  `read_token` (ucpp/lexer.c), for files.  How the file is buffered, input from strings, UTF-8 and `canonize_id`, `COPY_LINE` and
  the output of `put_char` in `LEXER` mode are not modelled; `SEMPER_FIDELIS` and `CAST_OP` are as in tune.h.  Line numbers are in the model but nothing is
  said about them.  The loops take fuel; the theorems say that there is enough.  Texts that C does not divide (unfinished literals and comments,
  lone backslashes) and universal character names are left out, as are header names, which ucpp reads elsewhere.
* **Redecl** (C60): `compatCheck2` and `CheckRedecl` over the symbol table as a list of entries, with reads outside of it as a
  distinct outcome. Not in it: `__interrupt` functions, the mix of `static` and `extern` at file scope (which the table
  does not record), the warning about `f(void)` redeclared as `f()`, tags (C21). What the parser puts into the table is C45.
* **Mach** (C61): `RwMach` as the writers of C53. The loader of Spec.lean checks what Apple's document asks of segments, sections, the symbol table and the
  thread command; it demands no more of names than that __LINKEDIT holds the symbol table. Alignment fields of section headers (always 0) and `flags` are not looked at.
* **Fixup** (C62): smlrl.c:3258-3400, the writing of the table of base relocations behind the file, with the file as bytes and a position, and
  the choice of relocations. The sections are those placed by `Pass`, with their addresses, in its order; that what stands in the file for them is
  right at these addresses is a hypothesis in the form that C54 proves for ELF (`Pass` and `Relocate` are the same code). The headers are C63.
  Import tables are C64. Hypothesis `hroom`: the file with 12 bytes for each relocation is shorter than 4 GB.
* **Pe** (C63): `RwPe` as the writers of C53, with the relocation table of C62. The loader of Spec.lean demands contiguous sections, the alignments
  4096 and 512, a base that is a multiple of 64 KB and the exact size of the image; it does not check the check sum (0), the sizes of code and data, or
  the stack and heap sizes. Which words of the import tables are made relative to the base, and the import directories, are here any function of the
  layout (they are C64); a section that these writes touch is excepted from the claim about contents. Hypothesis `hroom` keeps the program and its relocations away from the end of
  the address space (16 KB and 12 bytes for each relocation), more than is needed.
* **Imports** (C64): smlrl.c:3174-3190 and 3217-3256, on the bytes of the file. A failure of `Fread` is no result. The loops have the length of the file as
  their limit, which they cannot reach before a read fails. That the place `r` of the image is at `r - 4096 + 1024` in the file is C63; the two theorems are not composed.
  Hypotheses: the words that are read or written do not overlap, and lie in the file; image base and file end 8 KB before 4 GB.
* **Strtof** (C65): strtof.c, strtod.c, atof.c and cvtfd.c; `double` is `float` in this compiler. `__cvtfd` has the text of the compiler's `d2f` (compared with
  `diff`) without the check of its buffer, so that the error of the model of `d2f` is here a write past the buffer (proved not to happen, `c65_safe`). Negation
  changes the sign bit; NAN is the bit pattern 0x7FC00000. Texts of fewer than 2^31 digits are supposed where digits are counted.
* **Fscan** (C66): doscan.c:141-150, 199-468, one floating conversion over the bytes still to be read; `fgetc` takes the head, `ungetc` puts it back (nothing for
  EOF). A branch of the `switch` is one of five actions, as every branch either counts its character or puts it back. The count of characters and `mexp` are unbounded;
  the theorems about numbers suppose pieces 500 characters short of 2^31. Where the value goes (`float` or, with `l`, `double`, which is the same type) is
  not modelled, nor how the conversion is reached from the format and what is added to the count of assignments (C43 for the other conversions).
* **Getenv** (C67): getenv.c, the loops of the two DOS versions (equal but for the fetch of a byte) and of the Unix version; a read past the memory at hand is
  the outcome `past`. Not modelled: how the environment is found (PSP, `__dpmi_env`, `__environ`), the buffer of the previous call that is freed, and the Windows version,
  which asks the system. Indices are unbounded. The two versions differ for a name with an equals sign, which no entry can have (`c67_equals`).
* **Rand** (C68): rand.c and srand.c; the five instructions of the 16-bit `helper` are modelled by their arithmetic on a dword of two words.
* **Exit** (C69, C70): atexit.c, exit.c:94-97 and 135-143, strerror.c. Functions are known by their addresses; what a function does is the list of functions it registers,
  the same each time it is called. Closing the files and ending the program (exit.c:99-132) are not modelled, nor functions that call `exit` themselves (undefined in C).
  In strerror.c `strcpy` and `strcat` are modelled by their effect (C03 is about their code); a write below `sn` or past `s` is an outcome of its own.
* **Args** (C71): c0.c:33-123 on the memory of **Mem**. The array `argv` is the list of pointers stored; its length is bounded by `c71_count`, the NULL after it is left out.
  Counters are unbounded; where `char` is signed makes no difference, as characters are only compared and copied. Not modelled: how the line gets into memory (`setargs`,
  c0.c:298-385, 505-537).
* **Tmpnam** (C72): tmpnam.c:115-186, 215-311. Texts are lists; writing one that does not fit `L_tmpnam` is an outcome of its own. The system is a function from the
  number of the question and the name to an answer (there, not there, another error), and a predicate for directories; the calls to it are not modelled, nor `getenv` (C67)
  and the saving of its buffer. `TMP_MAX` is 10000 everywhere; `L_tmpnam` is any number from 20 on in DOS and Windows (80 and 260 in stdio.h).

## Defects found while modelling

* **`exprval`: the comma operator keeps the type of an array** (smlrc.c:5145-5154).  The right operand is not decayed to a
  pointer, so that `sizeof (0, a)` is the size of the array: `c46_comma_defect`.
* **`ParseDerived`, `ParseFxnParams`: three departures from C** (smlrc.c:7145-7157, 7195-7213, 8607-8608).  `int (a[3])[];`
  (an array of arrays of unknown size) is accepted, as the rule "only the first dimension may be omitted" starts anew after a
  closing parenthesis: `c45_open_defect`.  A list of parameters may end with a comma, `int f(int,);`: `c45_comma_defect`.
  In a scope where `T` is a typedef, `int (T);` is read as a function without a name taking a `T` instead of
  declaring a variable `T`: `c45_paren_defect`.
* `__cvtdif` marks digits that do not fit the buffer as a non-zero remainder by the newly found,
  more significant digit instead of the overwritten one (cvtdf.c:118-119).  `%e` and `%g` therefore round
  a number with more than `P + 2` digits before the point, of which `P + 1` are printed, up when
  it lies exactly half-way: `printf("%.0e", 250.0f)` prints `3e+02` (`c44_tie_defect`).

* `#if`: the result of `?:` keeps the type of the selected operand, so that
  `(1 ? -1 : 0u) > 0` is false (`c34_conditional_defect`); a comma between `?` and `:` is
  rejected (`c34_comma_defect`); unary minus is carried out also in operands that are not
  evaluated, where it can overflow in the host (`c34_negation_defect`).  `MIN % -1` is
  computed by the host and traps (it is undefined in C too, hence outside `c34_value_partial`).
* `return` makes no jump to the epilogue if the next token is the `}` of the function.
  If it is the body, without braces, of a `while` or `for` that ends the function
  (`void f(int c) { while (c) return; }`), it is followed by the jump back: the function
  does not return (`c26_loop_return_defect`).  All other functions are covered by
  `c26_run_partial`; `loopRet` tells the excluded ones.
* The linker selects the sections of a description by name only: a section that is
  not allocatable is put into the program if an allocatable one has its name
  (`c32_defect`).

* The linker does not check that a relocated value fits a 16-bit field; the upper
  half is cut off silently (`c30_defect`).

* `UndoNonLabelIdents` moves the names of labels down in label order, which need
  not be table order; in `{ int b; goto a; goto b; }` moving `a` overwrites `b`
  before it is moved, and label `b` is lost (`c20_defect`).
* A macro given twice with `-D` (or one predefined) gets two entries; `#undef`
  removes the first only and so brings the second into force (`c19_defect`).
* A conditional still open at the end of the input is not diagnosed
  (`c28_defect`); `#elif` after a skipped branch is silently taken as false, and
  after `#else` it enables a second `#else` (`c28_defect_elif`).

* `GetNumber` (smlrc.c) and `strtof`: fractional digits beyond the 112-digit
  buffer are dropped but still counted into the exponent (`c18_defect`).
* `malloc` on growable heaps: no sign check on the growth when the last block is
  free, so a huge request shrinks the heap and returns overlapping memory
  (`c08_growing_defect`; the positive theorem is `c08_growing_heap_partial`).
* `realloc` shrinking a block does not merge the remainder with a following free
  block; the fragmentation persists after everything is freed
  (`c09_realloc_defect`).
* `fseek(SEEK_CUR)` on a buffered read stream ignores the unread buffered bytes
  when the target lies outside the buffer, and always on update streams
  (`c15_defect`, `c15_defect_read`); a failing `fseek` moves the stream
  (`c15_defect_fail`).
* `ungetc` fails after end of file was met (`c13_defect`).
* `fputc` on a stream opened for reading reports success while the buffer has
  unread bytes (`c14_defect`).
* `printf("%#hhx", 0x100)` prints `0x0`: the base prefix is decided before the
  length modifier is applied (`c11_defect`).
* `mktime` on Linux adds the time zone offset to the failure value -1
  (`c12_defect`).
* The name being declared is visible inside its own declarator, also for members of structures:
  in `enum { n = 3 }; struct { int n[n]; } s;` the dimension refers to the member
  (`c21_own_defect`).
* `FindSymbol` skips typedef names, so that a name hidden by a typedef of an inner scope is
  still found in expressions (`c21_typedef_defect`).
* A comma before the closing brace is refused around the initialiser of a scalar and around a
  string, `int x = { 1, };` (`c38_comma_defect`).
* `scanf`: after a white-space directive at the end of the input `%n` stores one too many
  (`c43_count_defect`), and `%%` does not skip white space (`c43_percent_defect`).
* **Numbers glued to other tokens** (C49, `c49_defect`): `0xe+1` is one preprocessing number in C and no valid token; the
  compiler reads `0xe`, `+`, `1`. `1lf` is read as `1l` and the identifier `f`.
* **`#define` does not know literals** (C50, `c50_defect`): blanks within a string or character literal of a macro body are
  collapsed to one space (`"a  b"` becomes `"a b"`), and `//` or `/*` in it begins a comment (`"ab//c"` loses its end).
* **Self-referential macros** (C50, `c50_defect_self`): after `#define a a` the compiler replaces `a` for ever (until its
  queue overflows), C leaves `a` alone.
* **`strftime` counts modulo 2^32** (C52, `c52_defect`): if the text has 4 GiB or more (a format of 360 MB can have that), the
  count of `__putc` starts from 0 again and stores go on behind what the buffer already holds: outside it.  Its full statement:
  for every format the result is 0 if the text does not fit; `c52_strftime_partial` lacks the texts of 4 GiB and more.
* **a.out output with alignments above a page** (C53, `c53_aout_defect`): `RwElf`, `RwMach` and `RwPe` refuse or limit alignments above 4096,
  `RwAout` does not.  A data section aligned to 8192 is put at 8192, but the header says that text ends at 4096 and the loader
  puts data right after text.  Its full statement: `c53_aout_partial` without the hypotheses about alignments and about some code.
* **Absolute symbols** (C54, `c54_absolute`): a global symbol with section number SHN_ABS (0xFFF1), as assemblers make for `global x` / `x equ 5`, is
  looked up with `pSections[0xFFF1]` in `FindSymbolAddress` (smlrl.c:1650-1653; only SHN_COMMON is excluded): memory outside of the array is read and added.
* **Sizes of archive members** (C55, `c55_loop`): the offset after a member is computed modulo 2^32 and the size is not compared with the file; a file of 68 bytes that claims a member
  of 4294967236 bytes makes the linker read the same header for ever.
* **Tokens that the preprocessor divides wrongly** (C59, `c59_dots`, `c59_pct`, `c59_number`): its lexer cannot go back by more than one character and makes
  `.` `.` `5` of `..5` (C: `.` `.5`) and `%:` `%` `=` of `%:%=` (C: `%:` `%=`); in numbers it forgets that after `e` or `p` another `e` or `.` may follow, and
  makes two tokens of `1e.5` and three of `1ee+5` (C: one pp-number each, which matters for `#` and `##`).  Full statement: `c59_tokens_partial` with `fun _ _ => True` in place of `¬ Odd`.
* **Redeclarations with `()`** (C60, `c60_reject`, `c60_promote`, `c60_lost`): after `int f(int);` the valid `int f();` is
  rejected; after `int f();` the invalid `int f(char);` and `int f(int, ...);` are accepted; after `int f(void);` and `int f();`
  the prototype is forgotten (arguments of later calls are not checked).
* **Mach-O programs that reach into the last page** (C61, `c61_last_page`): the address of __LINKEDIT behind the program wraps to 0, on top of __PAGEZERO; the linker reports nothing. Full statement:
  `c61_mach_partial` without `hroom`, in a form that also allows an error.
* **PE files that are not loaded** (C63, `c63_base`, `c63_high`): an origin that is not a multiple of 64 KB is taken, though Windows refuses such a base;
  the relocation table of a program that ends at 4 GB lies outside of the address space; nothing is reported. Also, a section
  without contents among the import tables is divided between .idata and .data if sections without contents are put into the file (`c63_dll`); as both are
  writable, this is harmless. Full statement: `c63_pe_partial` without `h64`, `hdll` and `hroom`.
* **Imports by number and shared tables** (C64, `c64_number`, `c64_shared`): the image base is subtracted from every entry, also from those with the highest bit
  set, which are numbers, not places of names; and a table used both for lookup and for addresses is made relative twice. Windows then fails to load the
  program. Full statement: `c64_imports_partial` without `hn`, and with equal tables allowed in `ha`.
* **PE: zeros that cannot be written** (C63, `c63_zeros`): a section without contents that is not writable makes the linker end with an internal error.
* **strtod** (C65): an exponent of 2^31 or more makes the whole text no number, 0 and nothing read, instead of infinity with ERANGE or 0
  (`c65_exponent`; scanf caps the exponent and is right); digits after the 112th in the fraction divide the number by 10 each (`c65_digits`, as in C18);
  hexadecimal numbers and `nan(...)` are not read (`c65_hex`, `c65_paren`). Full statement: `c65_number_partial` without `hb` and `hl`.
* **scanf** (C66): `-`, `.` and `1e` at the end of the input are matching failures in C99 (the input item is not empty), but scanf returns EOF (`c66_eof`); digits
  after the 112th divide the number as in strtod (`c66_digits`); hexadecimal numbers and `nan(...)` are not read (`c66_hex`, `c66_paren`).
  Full statement: `c66_number_partial` without `hl`, and `c66_words_partial` with parentheses.
* Observed while reading, without a theorem: `setargs` in DOS copies the program's name without bound into `line`, where 80 bytes are
  meant for it (c0.c:294, 336); the linker dereferences a null table
  when the entry point given by the user is an undefined `__start_x`-style name;
  `strtof` of a number with a huge exponent returns 0 and leaves `endptr` at the
  start; in `ucpp` `0x` without digits is 0, `'ab'` is `'a'`, and
  the simulated `sdiv` gives the remainder the sign of the quotient; `flushbuf` without memory for the buffer of a
  line-buffered stream clears `_IOLBF` but does not make the stream unbuffered;
  `float` is accepted as a 2-byte type on 16-bit targets; in `exprval`,
  `(1 ? 0 : p) + 1` counts as a constant with the unscaled value 1 while the
  scaled number stands on the stack; `(void *)(char *)0` is taken for a null pointer constant; `scanf` of `-` at the end of the input with `%d`, or
  of too few characters for `%3c`, returns `EOF` where the standard makes it a matching
  failure, and so does the end of the input after a suppressed conversion.
  In `GenCmp` of cgmips.c `x <= 0x7FFFFFFF` makes `constval++` overflow an `int` of the compiler; the model
  wraps, as compilers do.
