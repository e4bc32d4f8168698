{
 "claims": [
  {
   "property": "C01",
   "status": "proved",
   "theorems": [
    "Smlr.Strtol.c01_strtol"
   ],
   "note": ""
  },
  {
   "property": "C02",
   "status": "proved",
   "theorems": [
    "Smlr.Strtol.c02_strtoul"
   ],
   "note": ""
  },
  {
   "property": "C03",
   "status": "proved",
   "theorems": [
    "Smlr.Mem.c03_memmove",
    "Smlr.Mem.c03_memcpy",
    "Smlr.Mem.c03_memset",
    "Smlr.Mem.c03_strcpy",
    "Smlr.Mem.c03_strcat",
    "Smlr.Mem.c03_strncpy",
    "Smlr.Mem.c03_strncat"
   ],
   "note": ""
  },
  {
   "property": "C04",
   "status": "proved",
   "theorems": [
    "Smlr.Mem.c04_memcmp",
    "Smlr.Mem.c04_strcmp",
    "Smlr.Mem.c04_strncmp"
   ],
   "note": ""
  },
  {
   "property": "C05",
   "status": "proved",
   "theorems": [
    "Smlr.Mem.c05_strlen",
    "Smlr.Mem.c05_memchr",
    "Smlr.Mem.c05_strchr",
    "Smlr.Mem.c05_strrchr",
    "Smlr.Mem.c05_strstr",
    "Smlr.Mem.c05_strspn",
    "Smlr.Mem.c05_strcspn",
    "Smlr.Mem.c05_strpbrk"
   ],
   "note": ""
  },
  {
   "property": "C39",
   "status": "proved",
   "theorems": [
    "Smlr.Mem.c39_strtok_call",
    "Smlr.Mem.c39_strtok"
   ],
   "note": ""
  },
  {
   "property": "C40",
   "status": "proved",
   "theorems": [
    "Smlr.Ctype.c40_classes",
    "Smlr.Ctype.c40_case"
   ],
   "note": ""
  },
  {
   "property": "C41",
   "status": "proved",
   "theorems": [
    "Smlr.Strtol.c41_atoi"
   ],
   "note": ""
  },
  {
   "property": "C06",
   "status": "proved",
   "theorems": [
    "Smlr.Sort.c06_qsort"
   ],
   "note": ""
  },
  {
   "property": "C07",
   "status": "proved",
   "theorems": [
    "Smlr.Sort.c07_bsearch"
   ],
   "note": ""
  },
  {
   "property": "C37",
   "status": "proved",
   "theorems": [
    "Smlr.Lng.c37_add",
    "Smlr.Lng.c37_sub",
    "Smlr.Lng.c37_compare",
    "Smlr.Lng.c37_from",
    "Smlr.Lng.c37_to"
   ],
   "note": ""
  },
  {
   "property": "C08",
   "status": "partial",
   "theorems": [
    "Smlr.Heap.c08_fixed_heap",
    "Smlr.Heap.c08_growing_heap_partial",
    "Smlr.Heap.c08_growing_defect"
   ],
   "note": "Fixed heap: all sizes. Growing heap: requests up to 2^31-16 bytes; false beyond (c08_growing_defect)."
  },
  {
   "property": "C09",
   "status": "proved",
   "theorems": [
    "Smlr.Heap.c09_reusable",
    "Smlr.Heap.c09_all_freed",
    "Smlr.Heap.c09_realloc_defect"
   ],
   "note": "Histories of malloc, calloc, free; with realloc the claim is false (c09_realloc_defect)."
  },
  {
   "property": "C10",
   "status": "partial",
   "theorems": [
    "Smlr.Heap.c10_realloc_fixed",
    "Smlr.Heap.c10_realloc_growing_partial"
   ],
   "note": "Fixed heap: all sizes. Growing heap: requests up to 2^31-16 bytes."
  },
  {
   "property": "C11",
   "status": "partial",
   "theorems": [
    "Smlr.Printf.c11_printf_partial",
    "Smlr.Printf.c11_defect"
   ],
   "note": "All formats over d i u o x X c s and all arguments, except a value that is nonzero but truncated to zero by hh/h under # with x/X (defect: prefix is still printed)."
  },
  {
   "property": "C12",
   "status": "proved",
   "theorems": [
    "Smlr.Time.c12_gmtime",
    "Smlr.Time.c12_gmtime_null",
    "Smlr.Time.c12_mktime",
    "Smlr.Time.c12_roundtrip",
    "Smlr.Time.c12_mktime_invalid",
    "Smlr.Time.c12_defect"
   ],
   "note": "Windows mktime (system call) not modelled; c12_defect: with a nonzero Linux time zone the failure value is shifted."
  },
  {
   "property": "C13",
   "status": "proved",
   "theorems": [
    "Smlr.Stdio.c13_read",
    "Smlr.Stdio.c13_whole",
    "Smlr.Stdio.c13_eof",
    "Smlr.Stdio.c13_defect"
   ],
   "note": "Byte-mode file streams; read errors and short reads included. c13_defect: ungetc fails after end of file."
  },
  {
   "property": "C14",
   "status": "proved",
   "theorems": [
    "Smlr.Stdio.c14_write",
    "Smlr.Stdio.c14_new",
    "Smlr.Stdio.c14_append",
    "Smlr.Stdio.c14_success",
    "Smlr.Stdio.c14_immediate",
    "Smlr.Stdio.c14_defect"
   ],
   "note": "Streams opened w, a, r+; write errors and short writes included. c14_defect: misuse of a read stream is not reported."
  },
  {
   "property": "C15",
   "status": "partial",
   "theorems": [
    "Smlr.Stdio.c15_seek_partial",
    "Smlr.Stdio.c15_defect",
    "Smlr.Stdio.c15_defect_read",
    "Smlr.Stdio.c15_defect_fail"
   ],
   "note": "SEEK_SET and SEEK_END always; SEEK_CUR after a read only inside the buffer of a read-only stream, false otherwise (c15_defect, c15_defect_read); a failed seek moves the stream (c15_defect_fail)."
  },
  {
   "property": "C16",
   "status": "proved",
   "theorems": [
    "Smlr.Number.c16_int",
    "Smlr.Number.c16_octal_digit"
   ],
   "note": "32-bit host unsigned."
  },
  {
   "property": "C17",
   "status": "proved",
   "theorems": [
    "Smlr.Number.c17_float"
   ],
   "note": "d2f and the digit collection of GetNumber; a literal whose exponent and length exceed 2^31-1 is rejected instead."
  },
  {
   "property": "C18",
   "status": "partial",
   "theorems": [
    "Smlr.Number.c18_partial",
    "Smlr.Number.c18_defect"
   ],
   "note": "Holds for literals without a fraction part; false with a long fraction (c18_defect)."
  },
  {
   "property": "C19",
   "status": "proved",
   "theorems": [
    "Smlr.Macro.c19_lookup",
    "Smlr.Macro.c19_accept",
    "Smlr.Macro.c19_defect"
   ],
   "note": "Directives, and command-line definitions of different names. c19_defect: a name defined twice on the command line."
  },
  {
   "property": "C20",
   "status": "partial",
   "theorems": [
    "Smlr.Ident.c20_intern_partial",
    "Smlr.Ident.c20_accept_partial",
    "Smlr.Ident.c20_stable",
    "Smlr.Ident.c20_label_partial",
    "Smlr.Ident.c20_label_numbers",
    "Smlr.Ident.c20_defect"
   ],
   "note": "Holds for histories in which the labels of a block stand in the table in label order when the block ends; false otherwise (c20_defect)."
  },
  {
   "property": "C28",
   "status": "partial",
   "theorems": [
    "Smlr.Prep.c28_select",
    "Smlr.Prep.c28_depth",
    "Smlr.Prep.c28_balanced_partial",
    "Smlr.Prep.c28_unsupported",
    "Smlr.Prep.c28_defect",
    "Smlr.Prep.c28_defect_elif"
   ],
   "note": "Selection proved for every balanced text. Unbalanced texts are diagnosed except a conditional open at the end of the input (c28_defect) and misplaced #elif (c28_defect_elif)."
  },
  {
   "property": "C22",
   "status": "proved",
   "theorems": [
    "Smlr.Layout.c22_accept",
    "Smlr.Layout.c22_sizeof",
    "Smlr.Layout.c22_layout"
   ],
   "note": "Word sizes 2 and 4, 32-bit host unsigned; structures declared outside sizeof."
  },
  {
   "property": "C36",
   "status": "proved",
   "theorems": [
    "Smlr.Specif.c36_declare",
    "Smlr.Specif.c36_kind",
    "Smlr.Specif.c36_missing"
   ],
   "note": "Word sizes 2 and 4; arithmetic and void specifiers (structure, union, enum and typedef bases are outside this model)."
  },
  {
   "property": "C35",
   "status": "proved",
   "theorems": [
    "Smlr.Lit.c35_string",
    "Smlr.Lit.c35_literal",
    "Smlr.Lit.c35_char",
    "Smlr.Lit.c35_name",
    "Smlr.Lit.c35_asm",
    "Smlr.Lit.c35_fuel"
   ],
   "note": "1-, 2- and 4-byte elements; literals in text that is compiled (not skipped by #if); x86 assembler output."
  },
  {
   "property": "C29",
   "status": "proved",
   "theorems": [
    "Smlr.Reloc.c29_stream",
    "Smlr.Reloc.c29_bytes"
   ],
   "note": "Sections up to 2^32-1024 bytes whose relocations are sorted by offset (qsort, C06) and do not reach past the end."
  },
  {
   "property": "C30",
   "status": "partial",
   "theorems": [
    "Smlr.Reloc.c30_field",
    "Smlr.Reloc.c30_jump",
    "Smlr.Reloc.c30_symbol",
    "Smlr.Reloc.c30_exact_partial",
    "Smlr.Reloc.c30_defect"
   ],
   "note": "Values modulo the field width always; that 16-bit values which do not fit are rejected is false (c30_defect)."
  },
  {
   "property": "C31",
   "status": "proved",
   "theorems": [
    "Smlr.Link.c31_modules",
    "Smlr.Link.c31_reports",
    "Smlr.Link.c31_address"
   ],
   "note": "Global symbols; addresses of the linker-defined names are covered by the section layout."
  },
  {
   "property": "C32",
   "status": "proved",
   "theorems": [
    "Smlr.Sect.c32_cmp",
    "Smlr.Sect.c32_complete",
    "Smlr.Sect.c32_order",
    "Smlr.Sect.c32_disjoint",
    "Smlr.Sect.c32_aligned",
    "Smlr.Sect.c32_file",
    "Smlr.Sect.c32_reject",
    "Smlr.Sect.c32_defect"
   ],
   "note": "All output formats; sections of one name are all allocatable or all not (c32_defect: otherwise the layout takes in a non-allocatable one)."
  },
  {
   "property": "C42",
   "status": "proved",
   "theorems": [
    "Smlr.Sect.c42_section",
    "Smlr.Sect.c42_code",
    "Smlr.Sect.c42_data",
    "Smlr.Sect.c42_missing"
   ],
   "note": "Nonempty names; the stack pseudo section is left out."
  },
  {
   "property": "C23",
   "status": "proved",
   "theorems": [
    "Smlr.Expr.c23_fold"
   ],
   "note": "16- and 32-bit words; the outcome \"expression too long\" (stack of 129 entries full) is allowed. Type names and enumeration constants come from the environment."
  },
  {
   "property": "C24",
   "status": "proved",
   "theorems": [
    "Smlr.Parse.c24_parse",
    "Smlr.Parse.c24_parse_separated",
    "Smlr.Parse.c24_long",
    "Smlr.Parse.c24_paren",
    "Smlr.Parse.c24_unambiguous",
    "Smlr.Parse.c24_bounded"
   ],
   "note": "A parenthesised type name is one token. Expressions too long for the stacks are given up with a message (c24_long)."
  },
  {
   "property": "C26",
   "status": "partial",
   "theorems": [
    "Smlr.Stmt.c26_run_partial",
    "Smlr.Stmt.c26_accepts",
    "Smlr.Stmt.c26_labels",
    "Smlr.Stmt.c26_loop_return_defect"
   ],
   "note": "For every tree and every meaning of expressions, goto and switch included. False for a while or for that ends a function and whose unbraced body ends with return (c26_loop_return_defect); c26_run_partial covers the rest."
  },
  {
   "property": "C27",
   "status": "partial",
   "theorems": [
    "Smlr.Stmt.c27_switch_partial",
    "Smlr.Stmt.c27_sections",
    "Smlr.Stmt.c27_seek",
    "Smlr.Stmt.c27_no_duplicates",
    "Smlr.Stmt.c26_accepts"
   ],
   "note": "As C26: the exception is the return defect of C26, which may also be in the last statement of a switch."
  },
  {
   "property": "C33",
   "status": "proved",
   "theorems": [
    "Smlr.Nhash.c33_dictionary",
    "Smlr.Nhash.c33_kill"
   ],
   "note": "Pointer-level model; both table sizes; scan and kill included."
  },
  {
   "property": "C34",
   "status": "partial",
   "theorems": [
    "Smlr.Eval.c34_value_partial",
    "Smlr.Eval.c34_division_partial",
    "Smlr.Eval.c34_accepted",
    "Smlr.Eval.c34_constant",
    "Smlr.Eval.c34_conditional_defect",
    "Smlr.Eval.c34_comma_defect",
    "Smlr.Eval.c34_negation_defect"
   ],
   "note": "Width 32 and 64. False for ?: with operands of different types, for a comma between ? and :, and for a negation that overflows in an operand that is not evaluated (the three defects); c34_value_partial and c34_division_partial cover the rest."
  },
  {
   "property": "C21",
   "status": "partial",
   "theorems": [
    "Smlr.Scope.c21_resolve_partial",
    "Smlr.Scope.c21_own_defect",
    "Smlr.Scope.c21_typedef_defect"
   ],
   "note": "All programs (as syntax trees) except those in which a name occurs inside its own declarator, where the claim is false (c21_own_defect). A typedef name used in an expression is not rejected (c21_typedef_defect)."
  },
  {
   "property": "C38",
   "status": "proved",
   "theorems": [
    "Smlr.Init.c38_data",
    "Smlr.Init.c38_accepts",
    "Smlr.Init.c38_types",
    "Smlr.Init.c38_comma_defect"
   ],
   "note": "All types and all token lists; also the converse: every meaningful initialiser is accepted with exactly these bytes."
  },
  {
   "property": "C25",
   "status": "proved",
   "theorems": [
    "Smlr.Cg.c25_code",
    "Smlr.Cg.c25_labels",
    "Smlr.Cg.c25_branch",
    "Smlr.Cg.c25_pure",
    "Smlr.Cg.c25_progress"
   ],
   "note": "All integer expression trees, word sizes 2 and 4, any program around the code, any memory. Function calls are not part of the trees (the property lists the operators that are). c25_branch: the conditional jumps of if, while, do and for."
  },
  {
   "property": "C43",
   "status": "partial",
   "theorems": [
    "Smlr.Scan.c43_scan_partial",
    "Smlr.Scan.c43_scan",
    "Smlr.Scan.c43_unique",
    "Smlr.Scan.c43_count_defect",
    "Smlr.Scan.c43_percent_defect"
   ],
   "note": "All formats without floating conversions, all inputs. c43_scan: the full statement for formats without %% and %n; c43_scan_partial adds these two as the code treats them. Missing from the full statement: %n after white space at the end of input and white space before %% (the code violates it, see the defect theorems)."
  },
  {
   "property": "C44",
   "status": "partial",
   "theorems": [
    "Smlr.Fprint.c44_print_partial",
    "Smlr.Fprint.c44_print",
    "Smlr.Fprint.c44_unique",
    "Smlr.Fprint.c44_tie_defect"
   ],
   "note": "All floats, flags, widths and precisions below INT_MAX - 100. c44_print: the full statement for f and F, and for e and g below 10^(digits asked for + 1); c44_print_partial covers all numbers with ties above that rounded up, as the code does (the code violates the full statement there, see c44_tie_defect). c44_unique: the specification determines the text."
  },
  {
   "property": "C45",
   "status": "partial",
   "theorems": [
    "Smlr.Declr.c45_declare",
    "Smlr.Declr.c45_sound_partial",
    "Smlr.Declr.c45_total",
    "Smlr.Declr.c45_typedef",
    "Smlr.Declr.c45_unambiguous",
    "Smlr.Declr.c45_open_defect",
    "Smlr.Declr.c45_comma_defect",
    "Smlr.Declr.c45_paren_defect"
   ],
   "note": "All declarators, token sequences and symbol tables. c45_declare: everything valid in C is parsed to its type (a typedef name directly after an opening parenthesis begins a parameter list). c45_sound_partial: everything accepted is a declarator with that type; missing: the code also accepts arrays of arrays of unknown size and a comma at the end of a parameter list (see the defect theorems)."
  },
  {
   "property": "C46",
   "status": "partial",
   "theorems": [
    "Smlr.Trans.c46_exprval",
    "Smlr.Trans.c46_code",
    "Smlr.Trans.c46_compile",
    "Smlr.Trans.c46_comma_defect"
   ],
   "note": "All expressions of integers, pointers and arrays of any depth, all symbol tables. c46_exprval: exprval leaves a tree that refines the meaning of the expression; c46_code: with C25, the x86 code computes it, and its labels are distinct; c46_compile: with C24, from the tokens of the source to x86 code. Missing: an array as the right operand of a comma (the code violates the statement there, see c46_comma_defect); pointers that are null pointer constants in disguise."
  },
  {
   "property": "C47",
   "status": "partial",
   "theorems": [
    "Smlr.Fn.c47_body_partial",
    "Smlr.Fn.c47_labels",
    "Smlr.Fn.c47_exprval",
    "Smlr.Fn.c47_return"
   ],
   "note": "All bodies, all expressions that are items, all memories, both word sizes, terminating and infinite runs. c47_body_partial: the printed code runs as the body does; c47_labels: labels are distinct if those of statements and expressions are; c47_exprval, c47_return: what exprval and the return statement leave for the code generator is an item with the meaning of the expression, converted to the return type. Missing: bodies that end with a loop whose body is a bare return (the code violates the statement there, c26_loop_return_defect)"
  },
  {
   "property": "C48",
   "status": "partial",
   "theorems": [
    "Smlr.Frame.c48_locals",
    "Smlr.Frame.c48_params",
    "Smlr.Frame.c48_args",
    "Smlr.Frame.c48_function_partial",
    "Smlr.Frame.c48_call_partial",
    "Smlr.Frame.c48_call_ptr_partial"
   ],
   "note": "All scopes and sizes, all parameter lists, all states. c48_locals and c48_params: where variables and parameters are, and exactly when there is an error; c48_args: parameters have the values of the arguments; c48_function_partial, c48_call_partial, c48_call_ptr_partial: prologue, body, epilogue and the call, with C47 for the body. Missing: bodies that end with a loop whose body is a bare return (the code violates the statement there, c26_loop_return_defect)"
  },
  {
   "property": "C49",
   "status": "proved",
   "theorems": [
    "Smlr.Lex.c49_space",
    "Smlr.Lex.c49_punct",
    "Smlr.Lex.c49_tokens",
    "Smlr.Lex.c49_only",
    "Smlr.Lex.c49_defect"
   ],
   "note": "All texts. c49_tokens: whatever C divides into tokens is read so, with macros; c49_space, c49_punct: white space and punctuators exactly; c49_only: what is accepted (without macros) is a token sequence of C, number literals being those GetNumber takes; c49_defect: which are a little more than those of C."
  },
  {
   "property": "C50",
   "status": "partial",
   "theorems": [
    "Smlr.Lex.c50_body_partial",
    "Smlr.Lex.c50_defect",
    "Smlr.Lex.c50_defect_self"
   ],
   "note": "All bodies without quotes, and all with quotes whose blanks are single spaces and which contain nothing like a comment. Missing: literals with other blanks or comment-like text, and self-referential macros; the code violates the statement there (c50_defect, c50_defect_self)."
  },
  {
   "property": "C51",
   "status": "proved",
   "theorems": [
    "Smlr.Mips.c51_code",
    "Smlr.Mips.c51_effect",
    "Smlr.Mips.c51_branch",
    "Smlr.Mips.c51_labels",
    "Smlr.Mips.c51_pure",
    "Smlr.Mips.c51_run"
   ],
   "note": "All expression trees without calls, any context, any memory and registers. c51_run: the machine is deterministic."
  },
  {
   "property": "C52",
   "status": "partial",
   "theorems": [
    "Smlr.Ftime.c52_strftime_partial",
    "Smlr.Ftime.c52_gmtime",
    "Smlr.Ftime.c52_defect",
    "Smlr.Ftime.c52_asctime",
    "Smlr.Ftime.c52_ctime",
    "Smlr.Ftime.c52_ctime_defect"
   ],
   "note": "Missing: texts of 4 GiB and more, for which the code stores outside the buffer (c52_defect). c52_gmtime: the results of gmtime meet the hypotheses. c52_ctime_defect: from 2106 on ctime dereferences the null pointer of localtime (as C allows)."
  },
  {
   "property": "C53",
   "status": "partial",
   "theorems": [
    "Smlr.Exe.c53_elf",
    "Smlr.Exe.c53_aout_partial",
    "Smlr.Exe.c53_aout_defect",
    "Smlr.Exe.c53_flat",
    "Smlr.Exe.c53_huge",
    "Smlr.Exe.c53_small"
   ],
   "note": "ELF, flat, .COM and DOS .EXE in full. Missing for a.out: sections with alignments above a page, for which the file is wrong (c53_aout_defect), and programs without any code."
  },
  {
   "property": "C54",
   "status": "proved",
   "theorems": [
    "Smlr.Whole.c54_elf",
    "Smlr.Whole.c54_absolute"
   ],
   "note": "For the ELF output format. c54_absolute is a defect: absolute symbols make the linker read outside of an array."
  },
  {
   "property": "C55",
   "status": "proved",
   "theorems": [
    "Smlr.Objf.c55_object",
    "Smlr.Objf.c55_file",
    "Smlr.Objf.c55_archive",
    "Smlr.Objf.c55_loop"
   ],
   "note": "c55_loop is a defect for damaged archives: the size of a member is not checked and the loop need not end."
  },
  {
   "property": "C56",
   "status": "partial",
   "theorems": [
    "Smlr.Mfn.c56_body_partial",
    "Smlr.Mfn.c56_labels"
   ],
   "note": "All bodies, all expressions that are items (those of C47, which are what exprval leaves), all memories and registers, terminating and infinite runs. Missing: bodies that end with a loop whose body is a bare return (the code violates the statement there, c26_loop_return_defect)."
  },
  {
   "property": "C57",
   "status": "partial",
   "theorems": [
    "Smlr.Mframe.c57_function_partial",
    "Smlr.Mframe.c57_args",
    "Smlr.Mframe.c57_call_partial",
    "Smlr.Mframe.c57_return"
   ],
   "note": "All functions and calls, parameters of integer and pointer types. Missing, as in C56: functions that end with a loop whose body is a bare return."
  },
  {
   "property": "C58",
   "status": "proved",
   "theorems": [
    "Smlr.Text.c58_signs",
    "Smlr.Text.c58_item",
    "Smlr.Text.c58_x86",
    "Smlr.Text.c58_mips"
   ],
   "note": "Expressions as in C46: integers and pointers; no calls, structures, strings, floating point."
  },
  {
   "property": "C59",
   "status": "partial",
   "theorems": [
    "Smlr.Ulex.c59_chars",
    "Smlr.Ulex.c59_tokens_partial",
    "Smlr.Ulex.c59_dots",
    "Smlr.Ulex.c59_pct",
    "Smlr.Ulex.c59_number"
   ],
   "note": "Missing: ..5, %:%=, %:%> and numbers like 1e.5, which the lexer divides wrongly (witnesses proved)."
  },
  {
   "property": "C60",
   "status": "partial",
   "theorems": [
    "Smlr.Redecl.c60_redecl_partial",
    "Smlr.Redecl.c60_members",
    "Smlr.Redecl.c60_reject",
    "Smlr.Redecl.c60_promote",
    "Smlr.Redecl.c60_lost"
   ],
   "note": "Missing: types in which () stands against a parameter list that C treats differently (witnesses proved)."
  },
  {
   "property": "C61",
   "status": "partial",
   "theorems": [
    "Smlr.Mach.c61_mach_partial",
    "Smlr.Mach.c61_last_page"
   ],
   "note": "Missing: programs that reach into the last page of the address space, for which the file is wrong (witness proved)."
  },
  {
   "property": "C62",
   "status": "proved",
   "theorems": [
    "Smlr.Fixup.c62_rebase",
    "Smlr.Fixup.c62_accepts"
   ],
   "note": "The contents of the sections at the preferred address are a hypothesis in the form proved by C54."
  },
  {
   "property": "C63",
   "status": "partial",
   "theorems": [
    "Smlr.Pe.c63_pe_partial",
    "Smlr.Pe.c63_accepts",
    "Smlr.Pe.c63_base",
    "Smlr.Pe.c63_dll",
    "Smlr.Pe.c63_high",
    "Smlr.Pe.c63_zeros"
   ],
   "note": "Missing: sections of zeros that are not writable (internal error; witness proved), image bases that are no multiples of 64 KB and programs that reach the end of the address space, for which the file is not loaded (witnesses proved), and sections without contents among the import tables when zeros are put into the file (divided between two sections; witness proved)."
  },
  {
   "property": "C64",
   "status": "partial",
   "theorems": [
    "Smlr.Imports.c64_imports_partial",
    "Smlr.Imports.c64_dirs",
    "Smlr.Imports.c64_none",
    "Smlr.Imports.c64_number",
    "Smlr.Imports.c64_shared"
   ],
   "note": "Missing: functions imported by number and tables that serve both purposes, which the code gets wrong (witnesses proved)."
  },
  {
   "property": "C65",
   "status": "partial",
   "theorems": [
    "Smlr.Strtof.c65_number_partial",
    "Smlr.Strtof.c65_inf",
    "Smlr.Strtof.c65_nan_partial",
    "Smlr.Strtof.c65_none",
    "Smlr.Strtof.c65_safe",
    "Smlr.Strtof.c65_exponent",
    "Smlr.Strtof.c65_digits",
    "Smlr.Strtof.c65_hex",
    "Smlr.Strtof.c65_paren"
   ],
   "note": "Missing: exponents from 2^31 on and numbers with more than 112 significant digits, which are read wrongly, and hexadecimal numbers and parentheses after nan, which are not read (witnesses proved)."
  },
  {
   "property": "C66",
   "status": "partial",
   "theorems": [
    "Smlr.Fscan.c66_number_partial",
    "Smlr.Fscan.c66_words_partial",
    "Smlr.Fscan.c66_fails",
    "Smlr.Fscan.c66_safe",
    "Smlr.Fscan.c66_eof",
    "Smlr.Fscan.c66_digits",
    "Smlr.Fscan.c66_hex",
    "Smlr.Fscan.c66_paren"
   ],
   "note": "Missing: numbers with more than 112 significant digits, which are read wrongly, and hexadecimal numbers and parentheses after nan, which are not read; at the end of the input a beginning of a number gives EOF in place of 0 (witnesses proved)."
  },
  {
   "property": "C67",
   "status": "proved",
   "theorems": [
    "Smlr.Getenv.c67_dos",
    "Smlr.Getenv.c67_unix",
    "Smlr.Getenv.c67_total",
    "Smlr.Getenv.c67_equals"
   ],
   "note": "The Windows version, which asks the system, is not modelled."
  },
  {
   "property": "C68",
   "status": "proved",
   "theorems": [
    "Smlr.Rand.c68_range",
    "Smlr.Rand.c68_same",
    "Smlr.Rand.c68_default",
    "Smlr.Rand.c68_period",
    "Smlr.Rand.c68_all"
   ],
   "note": ""
  },
  {
   "property": "C69",
   "status": "proved",
   "theorems": [
    "Smlr.Exit.c69_order",
    "Smlr.Exit.c69_nested",
    "Smlr.Exit.c69_now"
   ],
   "note": ""
  },
  {
   "property": "C70",
   "status": "proved",
   "theorems": [
    "Smlr.Exit.c70_strerror"
   ],
   "note": ""
  },
  {
   "property": "C71",
   "status": "proved",
   "theorems": [
    "Smlr.Args.c71_args",
    "Smlr.Args.c71_count",
    "Smlr.Args.c71_unique",
    "Smlr.Args.c71_quoted"
   ],
   "note": ""
  },
  {
   "property": "C72",
   "status": "proved",
   "theorems": [
    "Smlr.Tmpnam.c72_name",
    "Smlr.Tmpnam.c72_null",
    "Smlr.Tmpnam.c72_differ",
    "Smlr.Tmpnam.c72_dos",
    "Smlr.Tmpnam.c72_temp",
    "Smlr.Tmpnam.c72_unix"
   ],
   "note": ""
  }
 ]
}