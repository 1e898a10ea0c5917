# DESIGN

A Lean 4 model of selected parts of mccode-antlr (source in /repo, read as text only) and proofs of the
properties in `properties.jsonl`.

## Trusted base

* Lean 4.33.0's kernel and the axioms `propext`, `Classical.choice`, `Quot.sound` (checked with `#print axioms`);
  no other axiom, no `sorry`, no `native_decide`, no `bv_decide`.
* The hand translation from Python to Lean. Each definition cites the file and lines it models and says where it
  simplifies. Python itself, ANTLR's generated parsers, h5py, numpy, pooch, the file system and the C compiler are
  not modelled except through the small specifications stated in the modules.
* Floating point numbers are modelled by exact numbers (Int, Rat, or a commutative ring/field); rounding is out of scope.

<!-- generated -->
## What is modelled

Line numbers of every definition are in its comment. Python objects that are changed in place are functions returning the changed object; exceptions are values of `Except` (or are returned with the changed object, where a statement before the `raise` keeps its effect).

| Lean | Code in src/mccode_antlr | Taken for granted or left out |
| --- | --- | --- |
| Common | Python `dict` in insertion order, decimal printing of numbers | |
| Range, Scan | run/range.py | exact rationals for floats |
| Runner | run/runner.py 5-73, 150-188 | the file system and the running of programs: only the list of command lines is made |
| DataType, Expr | common/expression.py | exact rationals; vector values, the shape type and `None` are left out; objects are immutable except where said. Expr/Print: texts are token lists, the reader is a specification of the rule `expr` of McCommon.g4, conditional, negation and access operators left out |
| Orient | instr/orientation.py; c_initialise.py (placement) | exact reals; arithmetic on `Expr` objects gives the value of the operation (C09) |
| Instr | instr/instr.py, instance.py, group.py, comp/comp.py (parameters, metadata, groups, split, unused parameters) | the order of Python sets is left open |
| InstrText | printing and reading of TRACE sections: instance.py, jump.py, textwrap.py, metadata.py, visitor.py, McInstr.g4 | texts are token lists; expressions, coordinates and parameter lists are one opaque token each |
| Include | reading instruments including others: instr/visitor.py, instr.py 119-128, 174-198, reader.py 143-175 | values are opaque, files are definitions in a library, depth of inclusion bounded as Python's recursion is |
| Flags | DEPENDENCY flags: reader.py, comp/visitor.py, instr/visitor.py, loader.py, assembler.py | depth of nested reading bounded as Python's recursion is |
| Comp | comp/comp.py, comp/visitor.py (parameters, sections of copies) | parsed definitions |
| Registry | reader/registry.py, reader.py 39-107 | paths are texts without empty parts or `.`, glob patterns without special characters, the cache of pooch |
| Hdf5 | io/hdf5.py | that h5py stores attributes and groups as given; numpy numbers compare equal to those of Python; remote registries |
| Loader | loader/simfile.py, loader/datfile.py | ASCII white space, `int` of a sign and digits, numpy refusing ragged arrays; real numbers for floats, and a float's text is read as the same float |
| Trace | translators/target.py 201-230, c_raytrace.py, c_initialise.py 38-99: the C program that is written, run on one particle | the C run-time library (`rot_mul`, `mccoordschange`, ...) computes what its name says in exact reals; TRACE code is any function of the particle |
| Macros | c_defines.py, c_initialise.py, c_trace.py, c_raytrace.py, c_save.py, c_finally.py, c_display.py, with a C preprocessor | blocks of users hold no directives, no OPENACC |
| Escape | common/utilities.py, metadata.py, c_decls.py 81-83, with a C compiler reading string literals | C99 |
| Includes | translators/c.py 9-71 | `sorted` is any permutation (CPython's algorithm for short lists separately), sets in any order |
| CDecl | translators/c_listener.py 50-209, c.py 158-225, 280-285 | the C parser; the hash of an object is a function of its text |
| CEval | c_listener.py 403-455, common/visitor.py 13-88, with the meaning of C assignments | parsed statements, no overflow or rounding |
| Compile | compiler/c.py 11-173, 238-265, config/__init__.py 53-59 | truth values of options; versions as in PEP 440 without their text |
| Depend | instr/instr.py 219-287 | environment, registries, configuration and output of commands are functions; ASCII letters and white space; octal escapes in templates of `re.sub` |
| `Verif/Instr/McplModel.lean`, `Verif/Instr/Mcpl.lean` | instr/instr.py 380-456 `make_instance`, `mcpl_split` | the reader (a function giving type and flags), parsing of the file name as a value (a function), `mode`, registries; expressions in bodies are opaque |
| `Verif/Assembler` | assembler/assembler.py 24-93 `Assembler.component`, instr.py 152-158 `get_component`, instance.py 172-174 `set_parameters` | the reader and `check_expr` are functions; the `mode` field, and keyword arguments that are no fields of an instance |
| `Verif/Setpos/Literal.lean` | common/visitor.py 158-160 `visitExpressionString`, and C99 string literals (as in Escape) | the lexer: a literal is a text between quotes that C accepts |
| `Verif/Setpos/Model.lean`, `Props.lean` | translators/c_initialise.py 102-194 `cogen_comp_setpos` (setting parameters), c_decls.py 160-199 (members), common/visitor.py 85-88, parameters.py 69-70, expression.py 730-736 `compatible` | NeXus output, positions (C17), operations with one operand in lists and the conditional operator, unknown shapes; `stracpy` is the run time's (assumed to copy up to n characters, none after a zero); values of C expressions are an arbitrary environment |
| `Verif/Setpos/Private.lean` | c_initialise.py 198-210 (variables of DECLARE) | const variables, arrays of pointers; an expression's value is an arbitrary environment |
| `Verif/Setpos/Table.lean` | c_decls.py 62-78 `instrument_parameters_table` | the name, address and type of a row |
| `Verif/Particle` | translators/c_header.py 36-84, 162-256 (particle members by name, restore, start), c_particle.py, c_macros.py, c_initialise.py 3-30 (distances) | sizes of types, OPENACC, `mcsetstate`/`mcgetstate` of the run time library; reading a member of another type as double has no value |
| `Verif/InstrText/Param.lean` | parameters.py 8-27, McInstr.g4 38-45, instr/visitor.py 54-75 | expressions are one token; `char *`, literals with a prefix, an empty default |
| `Verif/InstrText/Whole.lean` | instr.py 36-76, 124-128, 505-506, McInstr.g4 18-26, instr/visitor.py 27-53, 287-306, textwrap.py 112-143 | SHELL, SEARCH, %include, COPY of sections; metadata sources, files and lines of blocks; a comment opened again |
| `Verif/Expr/CRead.lean`, `CMeaning.lean`, `Visit.lean` | McCommon.g4 37-67, common/visitor.py 12-144 (expressions), and the order of operators of C99 6.5 | `^` (exclusive or in C), chains of calls and members, casts; C's integer arithmetic (values are rational numbers); initializer lists, strings |
| `Verif/Expr/CTyped.lean` | expression.py 840-900 (folding of numbers), with the arithmetic of C99 6.5.5, 6.5.6 | overflow and rounding; conversions between sizes of integers |
| `Verif/Literal` | common/visitor.py 44-48, expression.py 746-753, 840-885 (payloads that are texts), with C99 6.4.4.1 | digit separators and binary constants (not in C99), the size of types, floating point literals |
| `Verif/Names` | c_header.py 18-21, 126-240, 279-303, c_decls.py, c_initialise.py 227-323, c_trace.py 79-117, c_raytrace.py (names), c_save.py, c_finally.py, c_display.py, c_macros.py, instr.py 207-211, block.py 15-17, 49-53 | names in user code, libraries, runtime files; prototypes; names local to functions; expressions of users |
| `Verif/Life` | c_initialise.py 105-150, 181-223, 227-323, c_save.py, c_finally.py, c_display.py (functions, calls, lists), instr.py 207-211 | what user code and the runtime do (a block of user code is one event), messages, macros, private variables, NeXus lines, pragmas; pointers given by name are null or not, as a function says |
| `Verif/Setpos/Nexus.lean` | c_initialise.py 152-175 `nexus_lines` | `mccomp_param_nexus` itself (run time), the placement, the type text |
| `Verif/Expr/CPower.lean` | expression.py 422-423, 960-967, common/visitor.py 50-52, and C's `^` | powers inside larger expressions |
| `Verif/Runner/Launch.lean` | compiler/c.py 175-276, run/runner.py 131-188, 191-295: which program is compiled and run | permissions other than reading and executing, changes of files by other programs, reading of the instrument (the invocation has the result), names of output directories |
| `Verif/Runner/Argv.lean` | run/runner.py 52-55, 150-158, compiler/c.py 279-313 | white space beyond ASCII; binding of graphics processors (raises) |
| `Verif/Registry/Generator.lean` | reader.py 45-49, 174, loader/loader.py 17-27, translators/c.py 235-237, translators/target.py 62-69 | equality of remote registries other than by all of their fields; the version check of the C library; instruments of an Assembler |
| `Verif/Comp/Reading.lean` | reader/reader.py 113-141, comp/visitor.py 16-58, 143-225 as steps that get other components | what the steps do (C68 for sections); the guess of the category; what parsing adds to the flags of the reader (C57) |
| `Verif/Instr/MetaTable.lean` | translators/c_decls.py 80-89, the source set by comp/visitor.py 228-233, instr/visitor.py 48-52, 145-150, instance.py 88-97 | the MIME type; escaping (C32); definitions that COPY the metadata of another type |
| `Verif/Include/AutoNames.lean` | instr/visitor.py 103-106, 151-155, 159-166, instr/instr.py 119-122 | references to instances by position; names longer than C allows |
| `Verif/Assembler/UserVars.lean` | assembler/assembler.py 132-153, instr/instr.py 180-181, common/block.py blocks_to_raw_c | the parser of declarations (any function); the messages printed |
| `Verif/Assembler/Parameters.lean` | assembler/assembler.py 107-124, common/expression.py 771-779, instr/instr.py 124-128 | reading a parameter from text (any function; C83); values of Python other than expressions, numbers, texts, sequences and dictionaries |
| `Verif/Html/View.lean` | common/textwrap.py 241-242, 253-255, 261-263, 269-270, 295-298, 304-306, 316-324 | lists, lines, comments and the scripts around them; of HTML all but tags and the references html.escape makes |
| `Verif/CDecl/Visit.lean` | translators/c_listener.py 15-18, 212-363 | the C parser; signs and underscores in int(); Visual C calling conventions; the list of typedef names |
| `Verif/Registry/Cache.lean` | reader/registry.py 236-255 | pooch itself, the URL asked, rights of files, white space other than blank, tab, CR and LF |
| `Verif/Expr/Compare.lean` | common/expression.py 609-611, 936-958, 1241-1279 | the BinaryOp that results (only that it is true); vectors within a Value; comparisons of a Value or operation outside an Expr |
| `Verif/Includes/Libraries.lean` | translators/c.py 9-14, 89-113, 140, 326-344, 352-362 | `%include` of a file with extension (115-138), missing files, contents |
| `Verif/Orient/AxisAngle.lean` | instr/orientation.py 59-68, 111-113, 317-319, 447-453, 459-490, 539-551 | numpy's eig (any unit vector left alone by the matrix); rounding, except that of is_rotation; log messages |
| `Verif/Registry/Tags.lean` | reader/registry.py 462-484 | git; digits outside ASCII; the registries made (485-489) |
| `Verif/Manage/Cache.lean` | cli/management.py 95-112; reader/registry.py 233-235, 258-265 (where files are kept) | empty directories, links; pooch (its directory is taken to be path/version); versions with a + |
| `Verif/Orient/Arithmetic.lean` | instr/orientation.py 745-763, 929-930, 935-945, 951-954 | adding or subtracting a single Part or Parts to an Orient; from_dependent_orientation (906-912, as 894-903 with one reference) |
| `Verif/Reader/SyntaxError.lean` | reader/reader.py 19-34; translators/c_listener.py 28-43 | the parser; the text of the first message; the level filter of the logger |
| `Verif/Reader/Configure.lean` | translators/target.py 74-113; config/__init__.py 49-70; config/config_default.yaml 1-16 | packaging.version (a function); the lines before and after the contents; confuse's sources (one partial map) |
| `Verif/Include/Parameters.lean` | loader/loader.py 9-14; instr/visitor.py 27-44, 80-105, 126-159 (parameters only), 371-377, 384-436; instr/instr.py 124-128 | parsing; everything about components but PREVIOUS in expressions and REMOVABLE; the other errors of the readers |
| `Verif/Expr/Parse.lean` | common/expression.py 1043-1049; grammar/mccode_parse.py 9-31; McCommon.g4 37-67 | the error recovery of ANTLR; strings, PREVIOUS and MYSELF |
| `Verif/Runner/Results.lean` | run/runner.py 150-158; compiler/c.py 304-324 | the standard output; files other than data files |
| `Verif/Compile/Save.lean` | translators/target.py 140-199; compiler/c.py 85-91 | what the parts print (other properties); failures of the file system |
| `Verif/Loader/Bins.lean` | loader/datfile.py 58-72, 86-96, 110-111, 151-153, 197-200 | rounding of numbers |
| `Verif/Expr/Lists.lean` | common/visitor.py 85-88, instr/visitor.py 202-207, translators/c_initialise.py 131-137 | strings as elements |
| `Verif/Expr/Flag.lean` | common/expression.py 377-380, 531-534, 633-635, 706-722, 771-779, 1014-1016, 1337-1339; instr/instance.py 155-160; instr/instr.py 489-502; assembler/assembler.py 41; translators/target.py 31 | lists (see C77, C119), names of operations |
| `Verif/Registry/Cli.lean` | cli/commands.py 43-93 (files), reader/reader.py 152-154 | options that are passed on, the version option |
| `Verif/Runner/Settings.lean` | cli/management.py 10-64, 152-157, config/__init__.py 8-11, 74-82 | confuse (assumed as stated), YAML, order of keys, save to a path |
| `Verif/Registry/Loader.lean` | loader/loader.py 17-58 (registries), reader/registry.py 186-197, 345-352 | reading of the file, SEARCH (C41, C97), c_flags |
| `Verif/Compile/Check.lean` | compiler/check.py 4-103, compiler/c.py 233-282 | what the compiler does, the flags of the trial (C48), logging |
| `Verif/Expr/Contains.lean` | common/expression.py 373-375, 527-529, 629-631, 1004-1012, 1040-1041, for names | vectors, `in` for values that are not names |
| `Verif/Registry/Spec.lean` | reader/registry.py 18-36, 414-459, all kinds of registry | addresses with square brackets, which urlparse may refuse; the constructors |

## What is not modelled

* Python itself, and the parsers ANTLR generates (grammar/); where texts are read, the grammar's rule is written down as a function on tokens or characters. Where a grammar is ambiguous, ANTLR's rule is assumed: the alternative listed first. In particular a sign is always read as a binary operator whose left operand is missing, since the alternative for strings (McCommon.g4 43) also matches nothing and stands before the one for signs (48); tests/test_expression.py 373-385 agrees.
* Floating point rounding, overflow, and the speed or memory of anything.
* The file system, network (pooch), subprocesses, threads, MPI, and C compilers; where they matter they are arguments or small specifications (C preprocessor, C string literals, the run of the trace loop).
* cli/ (command line tools), io/json.py, compiler/check.py, the monitors and detectors of the C run-time library (which is not in the repository).
* Log messages.

## Where code and property disagree

For these properties the full statement is false of the code, or needs conditions; the negations are proved in the theorems of MANIFEST.json.

* **C01** (partial) Holds when at least one step fits between start and stop; the code disagrees with the claim for shorter or backward ranges (negations proved).
* **C03** (partial) A plain scalar or a one-element list makes the code fail with AttributeError instead of being repeated (negation proved).
* **C04** (partial) Ranges shorter than one step count as zero points although iterating them gives one value (negation proved).
* **C06** (partial) The code passes the whole parameter dictionary at every scan point (negation proved); number of runs and directories are as claimed.
* **C10** (partial) simplify preserves the value whenever it returns, and returns when under some assignment every divisor is a number other than zero; it can raise otherwise (negation proved).
* **C11** (partial) Expressions wrapped in a Value are not substituted (negation proved).
* **C12** (partial) Holds for expressions without a Value wrapping another expression; the negation for the others is proved with that of C11.
* **C13** (partial) Holds when every printed operand binds strongly enough for its place (all operators); negations proved for a quotient by a product, the opposite of a product with a negative factor, a product with a negative right factor, a difference with an opposite, a conditional in a sum and a comparison in a product.
* **C14** (partial) Equal expressions can have different hashes (negation proved).
* **C15** (partial) Composition and from_angles hold in full; a rotation part of 180 degrees is not a rotation in the code (negation proved), so inverses hold for chains without it.
* **C16** (partial) Holds for chains whose parts are rotations (no 180 degree part, whose matrix the code gets wrong).
* **C17** (partial) Negations proved for absolute rotations with a relative position, half turns and run-time angles.
* **C18** (partial) Holds except at a quarter turn about y, where the angles are lost (negation proved).
* **C19** (partial) A component named PREVIOUS cannot be looked up (negation proved).
* **C22** (partial) A failing overwrite loses the old value, and a parameter can be held twice (negations proved).
* **C24** (partial) Components and references are as claimed in full; the placement holds for literal angles and rotations whose angles can be recovered (negation proved for a quarter turn about y).
* **C25** (partial) Occurrences in the USERVARS section are not looked at (negation proved).
* **C26** (proved) For an instrument without groups, which is how the parser calls it; a second call is shown to go wrong.
* **C27** (partial) Holds for jumps not shared by components and not translated before; negations proved for copies, for instruments translated before being split, for a component called myself and for targets before the first component.
* **C28** (partial) Refinement of a loop in absolute coordinates, for instruments without jumps whose groups are contiguous and have no member without code; negations proved for a skipped first component away from the origin and for a group member without code.
* **C29** (partial) Holds for contiguous groups whose members have code, when the leader is run or the component before did not scatter; negations proved for the rest.
* **C30** (partial) Holds without groups; in the FUNNEL layout no particle ever gets past a group (negation proved for every instrument with a group).
* **C31** (partial) Holds when every SPLIT makes at least one copy and, for the weight, without jumps; negations proved for SPLIT 0, for a jump before the first component and for a SPLIT followed by an iterated jump.
* **C32** (partial) Exact condition proved; negations for U+0080..U+00FF, control characters before a hexadecimal digit, trigraphs (the compiler is called with -std=c99) and metadata names with blanks.
* **C33** (partial) Sound for every permutation sorted may return; not complete: an example where a valid order exists and the function raises.
* **C34** (partial) The members of different variables and instances are distinct and no name is used twice; negations proved for an instrument variable with the name made for a component, for differing declarations, for the names of built-in members, and arrays lose their size.
* **C35** (partial) Reflexive and symmetric; not transitive, and a variable equals a pointer (negations proved).
* **C36** (partial) Holds for lists of any depth whose entries have no commas or braces; negations proved for empty lists, trailing commas and entries with commas; an array initialized by a text makes the translation raise.
* **C37** (partial) Holds but for mcget_run_num, which stays defined, and for the instrument's SAVE, whose definitions lack a parenthesis (negations proved); a parameter with the name of a member of the particle takes that macro away from later components.
* **C38** (partial) Holds in full for the registries a reader is made with; registries added later (SEARCH, append) are used regardless of priority (negation proved).
* **C39** (partial) Holds for add and for component names whose extension is not written in capitals; instruments stored in memory cannot be read by name (negations proved).
* **C40** (partial) A registry that has the file returns it; one that has only a file whose name ends with the name asked for returns that, or raises (negations proved).
* **C41** (partial) Holds for directories given without quotes; SEARCH in an instrument keeps the quotes, so it registers again each time; blanks and SEARCH SHELL raise (negations proved).
* **C42** (partial) Holds for trees of any depth of the values that have handlers and whose unsaved fields have their defaults, and for instruments whose references are to earlier components; negations proved for the rest. RemoteRegistry classes are not modelled.
* **C44** (partial) Holds for summaries whose texts are stripped, without line breaks and without the begin/end marks; negations proved for the rest.
* **C45** (partial) Counts and intensities are sums in any order, exactly; the errors are not combined in quadrature unless all later errors vanish (exact condition and negation proved), and the ray numbers of simulations are added only if their directories are the same (exact condition proved). A parameter only the second of two otherwise equal simulations has is lost. Numbers are reals, not floats.
* **C46** (partial) Exact: the orientation is right if and only if the number of points differs from that of the variables or the table is symmetric.
* **C47** (partial) Holds for the number of processes, MPI and OpenACC; every update loses NeXus unless it is asked for again (exact condition and negation proved).
* **C48** (partial) Partition and order are exact for a given list of flags; the list comes from a set, so the order of the DEPENDENCY strings is not determined, quoted blanks are broken on Linux and several flags in one string are not split on Windows (negations proved).
* **C49** (partial) Exact condition for the directives of one kind; for all three together the texts and values have no letter that could begin a keyword. Negations: flags with a keyword in their name are refused, values are searched again, parentheses in commands are cut.
* **C50** (partial) Order embedding proved for releases of at most three numbers, minor below 100 and patch below 1000; negations for larger numbers, further numbers and suffixes, and epochs.
* **C51** (partial) Holds when the rotation refers to the same component as the position does when it is zero, and for names that are not keywords; exact condition for the references; negations proved for the rest.
* **C52** (partial) Exact condition for a jump to be read back; negations for relative targets with a count, targets called like a keyword and jumps of translated instruments.
* **C53** (partial) References that exist resolve as stated; references that do not exist are taken as ABSOLUTE instead of raising (negations proved).
* **C54** (proved) The DEPENDENCY flags of an included instrument are not merged: see C57 included_dependency_lost.
* **C56** (partial) Assignments are carried out in order with the values before them, and an expression is returned for every variable, if C converts nothing; int conversion and integer division are not those of C; the dictionary given is changed; variables holding the same object get the last type asked for.
* **C57** (partial) Exact for parse_mccode_instr with plain literals; Reader.get_instrument loses the instrument's own DEPENDENCY and keeps those of earlier instruments, and that of an included instrument is lost (negations proved).
* **C58** (proved) The dictionary function is as claimed; mccode_run_scan does not use its result at scan points (scan_drops_aliases).
* **C61** (partial) Some combinations raise (negation proved).
* **C62** (partial) Division by one skips the floor (negation proved).
* **C63** (partial) Powers of operations raise and 0 ** 0 is 0 in the code (negations proved).
* **C64** (partial) Not symmetric in general (negation proved).
* **C65** (partial) An identifier compares equal to a string of the same text (negation proved).
* **C66** (partial) Holds for literal angles in degrees other than 180; negations proved for the rest.
* **C67** (partial) split copies the groups of the whole instrument (negation proved).
* **C68** (partial) Some clauses append instead of replacing (negations proved).
* **C69** (partial) Holds outside of groups; a jump taken in a group by a particle that scatters leaves the group without coordinate transformation (negation proved).
* **C70** (partial) Holds for headers with exactly the entries written and plain texts, and for one-dimensional data with as many points as variables only if the table is symmetric (negation proved).
* **C72** (partial) Holds for lists of any length of instances without SPLIT whose names, metadata and jumps are readable; negations proved for SPLIT, metadata names and blank EXTEND blocks.
* **C71** (partial) Holds for values without @ and backslash that are no single word, and texts between keywords that are no words; a backslash in a configured value raises or changes it, the @ ending one keyword may be taken to begin another, and keywords in values are replaced or not depending on where they come from.
* **C73** (partial) Components, parameters, success and (under the hypotheses of C24) placement are as claimed; a part cannot be split again, what the component at the split point did is lost, and references to it are to a component no longer there.
* **C74** (partial) Exact without a group and the removable mark; both are passed to the wrong fields.
* **C75** (partial) A call that returns adds what was described and sequences of calls keep the instrument well formed; an absolute rotation with a relative position is made relative, and calls that raise may leave the component or flags in the instrument.
* **C76** (partial) Holds for literals that do not end in an escaped quote (where what is written is never a literal) nor in an escape sequence continued by the next one.
* **C77** (partial) Exact conditions proved; negations for texts with characters beyond ASCII, NULL for parameters that are no texts, and instrument parameters in lists. The NeXus output is C93.
* **C78** (partial) Exact for arrays with one size and expressions without commas and braces, and for numbers and pointers; negations for the rest.
* **C79** (partial) Holds for defaults and units that are literals or plain texts; a parameter without a default gets the default None.
* **C80** (partial) Exact for variables of type double and for writing variables that are neither arrays nor pointers; negations for variables of other types (read as double all the same), arrays, pointers and variables with the name of a built-in member.
* **C81** (partial) Restoring and starting are exact; user variables of types other than double, MCNUM and int, pointers and arrays are not initialised, which is proved.
* **C82** (partial) Exact for names of components; an unknown name in setpos_getdistance or getdistance reads outside of the array of positions, which is proved.
* **C83** (proved) An exact condition for parameters whose name is no keyword; literals with a prefix such as L are outside the model.
* **C84** (partial) The exact instrument read is given for all readable instruments. Not the same: several flags become one, an empty flag becomes None, blocks are joined and padded; flags with an end of a line and repeated parameters are refused; SPLIT and REMOVABLE are lost (C72).
* **C85** (partial) Which texts the grammar and C read alike is exact; the generated text keeps the meaning for arithmetic printed with enough parentheses (C13). Negations for % and shifts. Integer division in C is not modelled (values are rational numbers), nor the prefix of parameters.
* **C86** (partial) Exact: the sign belongs to the operand except after + - * / ^; the consequences for the generated C are proved for each (silently wrong after * and -, right by accident after +, refused after /).
* **C87** (partial) Holds for floating point arithmetic in full, and for whole numbers where no quotient is cut off in either text; negations proved for quotients of integer literals (exact: they agree iff the division is even) and for dropped floating point ones and zeros.
* **C88** (partial) Exact for a literal on its own: octal constants other than 0...0d change value (negation). Sums and multiples of literals with letters (hexadecimal, suffix) go wrong (negations).
* **C89** (partial) Exact condition on the names of an instrument; the claim fails as the translator refuses none of the clashing names (negations proved). Names declared by user code, libraries and the runtime are outside the model.
* **C90** (partial) Holds for what the translator writes itself when definitions are filled through the methods of Comp; the macros of DEFINITION parameters stand for no member (negation, exact condition).
* **C91** (proved) Exact sequence of events of every section. What user code does is outside the model; a block of user code is one event.
* **C92** (partial) Exact conditions: fails when a list is given twice for a parameter (freed twice) and for default lists, which are never freed. User code is assumed not to touch the pointers.
* **C93** (partial) Holds for numbers and lists without quotes in them and for texts with a literal default; negations for text parameters without a default, NULL for a number, instrument parameters (recorded by name only) and expressions with a text in them.
* **C94** (partial) Fails: exact for two literals (the generated C has the power only if it is known without computing: base 1 or one of the two zero), and powers of variables by literals are refused by C or are an exclusive or. Powers of operations raise (C63).
* **C95** (partial) Exact: the command runs whatever program is at the place of its output, so all later calls run the program of the first one (negation); mccode_run never runs another program but raises if there is one. -d and compiled programs always raise. mcstas_run and mcxtrace_run pass their arguments in the wrong order (Path of a dict) and always raise; they are not modelled.
* **C96** (partial) Exact: holds iff no text is empty or has white space in it; the number of processes from the command line never reaches mpirun as a number (negation).
* **C97** (partial) Holds for Reader.get_instrument when its registries end up in order of priority; negations: parse_mccode_instr keeps none of the SEARCHed directories, and a SEARCHed directory loses to a given registry of higher priority.
* **C98** (proved) The registries are the same for all calls (for SEARCH see C41). The limit is the number of nested calls of get_component; a circle of COPY ends in RecursionError, not in a message about the files.
* **C99** (partial) The rows are exact; a row is under the name of the instance iff the instance writes it itself. Negations: metadata of types and of copied instances is listed again for each instance under the name of the type or of the copied one, and an instance called like a type shares its rows.
* **C100** (partial) Exact for an instrument without inclusion. Negations: an included instrument counts its own instances, so two instruments beginning with an instance without a name can not be combined; a written name can be what the counting gives.
* **C101** (partial) The effect is exact for all texts. Holds for one variable, except that another type declared before stays. Negations: of several variables only the first is looked for, so the others are left out or declared twice. USERVARS of components are not looked at.
* **C102** (partial) Holds for arguments that describe new parameters of different names. Negations: the pair of the documented usage, unit first, becomes a value without unit; parameters before one that fails stay; a parameter handed over keeps its own name.
* **C103** (partial) Holds for values and conditions, which are escaped; for sections exactly iff no < begins a tag and no & a character reference, so #include <math.h> is not shown; metadata has a stray quotation mark.
* **C104** (partial) Holds for arrays with plain sizes not containing the name, and for pointers to functions whose arguments have no parentheses. The size loses the name of the variable if it contains it (double x[max] becomes x[ma]); octal sizes are read as decimal; a blank before the bracket becomes part of the name; locals of functions and prototypes are taken for variables.
* **C105** (partial) Exact conditions proved: a list from the network is kept iff no value ends in a blank or has a carriage return; a given list iff its names have no blanks and its values are one trimmed line. A list given is ignored when a file of an earlier one exists.
* **C106** (partial) Holds for < and > between expressions and for all comparisons of numbers. Does not hold for >= and <= with unary operations (3 >= -y is always true), nor for an identifier compared with a Python number (x < 3 and x > 3 are both true).
* **C107** (partial) What is collected and what is written is right (as sets). Does not hold: headers that include each other are never done; a library needed only by sources is written once for each source that needs it, and never done if its source needs itself. Partial: exactly once only if the sources need nothing else.
* **C108** (partial) The angle is right up to sign, and right exactly if the axis found points the way that makes it positive or some pair of opposite entries of the matrix has different signs. Does not hold otherwise: for the turn of x to y to z the sign depends on the eigenvector. Specialization keeps the transformation except for tiny turns (dropped) and turns by 180 degrees, which get a sine of -1.
* **C109** (partial) Holds if all tags are versions and nothing more. Does not hold otherwise: of v3.5.0-rc1 the version v3.5.0 is made and used although there is no such tag, and dev2024 makes v2024 known.
* **C110** (partial) Holds for plain names and versions beginning with v. Does not hold for other versions (a branch): only the list of files is removed, the files are kept without version and used for every such version. A name like .. or an absolute path removes files outside of the cache.
* **C111** (partial) combine() is right. a - a is nothing. a - b has the difference of the positions in absolute axes and the rotations in the wrong order: it is a as seen from b only if the axes of b have the difference unchanged and the rotations commute (exact conditions and counterexamples proved); likewise for the positions of a + b and of the inverse. Literal half turns excluded, see C15.
* **C112** (partial) Holds from the fifth line on. Does not hold for errors in the first four lines of a source of five or more lines: line - pre is negative, the slice counts from the end and is empty, and the mark is logged with no line above it (exact condition proved).
* **C113** (partial) Keys are replaced and the rest is kept. The values are those of the registry only if it has the name of the flavor: registry_defaults sets them for the project named like the registry (libc) while the replacement reads those of the flavor (mcstas or mcxtrace), so the header gets version {UNKNOWN}, number 0 and a date in 1970 (proved for every registry not named like the flavor). A copy of the header in a second registry is refused rather than used.
* **C114** (partial) The parameters written in the instrument itself are returned. Those of included instruments are missing (exact condition proved for inclusion of any depth), and an instrument with PREVIOUS in an expression is refused with an AttributeError because the visitor has no destination.
* **C115** (partial) A text that is an expression is read as that. A text that only begins with one is not refused: what follows is ignored, if its first token can not continue the expression (proved for every expression and everything that follows). So WHEN('flag = 1') is WHEN flag. Texts for which ANTLR reports an error and goes on are not modelled.
* **C116** (partial) Proved for a directory without data files other than those written anew, and files of distinct names that can all be read. The code lists all data files below the directory and keys them by name only: files of an earlier run are returned (also by a dry run), one of these can be returned in place of the one just written, and one file that can not be read loses all results.
* **C117** (partial) Proved for instrument_source and save, whatever was done before. contents of a translator that was used before is the whole program of the instrument it has or had when it was translated, if no part raises. After a translation that failed contents does not raise: it returns the beginning of a program.
* **C118** (partial) The bins are adjacent, equally wide and n in number. They do not end at the limits but half a bin further at both ends, since the limits are taken for the centres of the first and last bin: proved for all limits and all n. With one bin there is a division by zero. A parameter of the instrument hides metadata of the same name, also from dim_metadata. Rounding is not modelled; the key of the number of bins is spelled lenght.
* **C119** (partial) Holds where an element is reduced to a number or to a name other than that of a parameter (list_values_partial). A list with an element that remains an operation of two or three operands is refused with an AttributeError (exact: list_accepted_iff). Of an operation with one operand only a list with its operand is kept, so that -s, (s) and !s are the same and what is written is not C (operation_of_one). A parameter of the instrument is written as its bare name (parameter_bare).
* **C120** (partial) Holds for the parameters of instances without a Value that holds an Expr. Only parameters are flagged before translation: a WHEN, SPLIT or JUMP condition, or a place, made without reading a file keeps bare names (conditions_unflagged); a text given for a place of an Assembler is one identifier, so that 2*E has no prefix, and a parameter added later is not seen (place_text); names inside a Value that holds an Expr have no prefix (boxed_unflagged); a member of a structure with the name of a parameter gets the prefix (member_prefixed); a flag is never removed (flagged_stays).
* **C121** (partial) The order and choice hold for all arguments. Where it fails: with an HDF5 file the directories have no effect; two files of one name below a directory make the look-up raise although the library has it; instruments named without .instr lose what follows the last dot and share an output file.
* **C122** (partial) set and unset have no effect outside their own process, not even on a save that follows (set_lost, only_save_counts). save keeps every value unless environment variables set a part of the mapping a key belongs to; then values of the user's file are lost (save_loses). The regular expression of list is ignored (saved_listing). The behaviour of the library confuse is assumed as stated in the file.
* **C123** (partial) Holds for all lists in which a registry equal to the library has the files of the library. Where it fails: equality does not compare the lists of files, so a registry made with an own list for the same address replaces the library; parse_mccode_instr without registries uses the McStas library and keeps none in the instrument.
* **C124** (partial) Holds for the state at the first check of the compiler for the target (proved for all sequences of calls). Where it fails: later changes of the configuration or of the compilers have no effect; a compiler named with an environment variable is looked for with the variable not replaced.
* **C125** (partial) No use is missed in expressions without a Value that holds an Expr, and the answer is given exactly. Where it fails: names in an operation held by a Value are not seen (or the question raises AttributeError); a string constant of the same text counts as a use.
* **C126** (partial) The four forms are read as documented, and nothing is made of other texts. Where it fails: if a file of the name of the version exists the fourth form makes a ModuleRemoteRegistry of that file; a URL without a third word raises TypeError instead of giving None; words after the fourth are ignored.

## Axioms of the theorems

As printed by `#print axioms` for the theorems of MANIFEST.json. No theorem depends on any other axiom.

* propext, Classical.choice, Quot.sound (591): `AsmParams.described_added`, `AsmParams.first_ones_added`, `AsmParams.keyword_ignored`, `AsmParams.raised_but_added`, `AsmParams.unit_first_not_unit`, `Assembler.absolute_rotation_lost`, `Assembler.assembled_well_formed`, `Assembler.component_added_partial`, `Assembler.component_called_absolute`, `Assembler.component_returns`, `Assembler.failed_parameter_adds`, `Assembler.failed_placement_keeps_flags`, `AutoNames.included_refused`, `AutoNames.refused_iff`, `AutoNames.unnamed_never_refused`, `AutoNames.written_name_clashes`, `Bins.bins`, `Bins.bins_beyond_limits`, `Bins.bins_iff`, `Bins.dims_of_file`, `Bins.dims_of_image`, `Bins.label_unit`, `Bins.parameter_taken`, `Bins.single_bin`, `Bins.variable_row`, `CDecl.Visit.array_declared`, `CDecl.Visit.blank_in_name`, `CDecl.Visit.first_size_kept_iff`, `CDecl.Visit.function_pointer_member_partial`, `CDecl.Visit.locals_declared`, `CDecl.Visit.members_as_written_partial`, `CDecl.Visit.name_removed_from_size`, `CDecl.Visit.octal_size_decimal`, `CDecl.Visit.other_declarators_wrong`, `CDecl.Visit.plain_declared`, `CDecl.Visit.typedef_declares_nothing`, `CDecl.array_member_sizes`, `CDecl.array_member_without_size`, `CDecl.array_with_text_raises`, `CDecl.builtin_member_names_accepted`, `CDecl.decl_eq_refl`, `CDecl.decl_eq_symm`, `CDecl.decl_eq_trans_partial`, `CDecl.different_types_differ`, `CDecl.differing_declarations_accepted`, `CDecl.initializer_size_partial`, `CDecl.initializer_size_wrong`, `CDecl.instrument_variable_shared`, `CDecl.member_name_injective`, `CDecl.particle_members_distinct`, `CDecl.pointer_equals_scalar`, `CDecl.uservars_partial`, `CEval.evaluate_values_partial`, `CEval.int_conversion_lost`, `CEval.integer_division_wrong`, `CEval.known_changed`, `CEval.sequential_values_partial`, `Check.asked_again`, `Check.checks_independent`, `Check.compiled_iff_partial`, `Check.decorated`, `Check.first_answer_stays`, `Check.trial_is_for_target`, `Check.variable_not_found`, `Check.works_for_target`, `Comp.share_copy_repeats`, `Comp.written_block_appends`, `Compile.linux_flag_kept`, `Compile.linux_groups`, `Compile.linux_link_after_source`, `Compile.macro_monotone`, `Compile.macro_order`, `Compile.no_version`, `Compile.order_not_determined`, `Compile.quoted_blank_broken`, `Compile.rest_ignored`, `Compile.same_words`, `Compile.windows_groups`, `Compile.windows_lengths`, `Compile.windows_link`, `Compile.windows_link_late`, `Compile.windows_not_split`, `Configure.configured`, `Configure.configured_iff`, `Configure.keys_replaced`, `Configure.macro_order`, `Configure.own_copy_refused`, `Configure.values_partial`, `Configure.version_unknown`, `Depend.backslash_changed`, `Depend.backslash_raises`, `Depend.bare_keyword_refused`, `Depend.command_value`, `Depend.decode_partial`, `Depend.directives_iff`, `Depend.flag_refused`, `Depend.keywords_replaced_partial`, `Depend.nested_directive`, `Depend.no_keyword_kept`, `Depend.parentheses_cut`, `Depend.path_value`, `Depend.shared_at_replaced`, `Depend.value_scanned_again`, `Depend.values_searched`, `Escape.hex_digit_swallowed`, `Escape.latin1_not_utf8`, `Escape.literal_ends_at_its_quote`, `Escape.literal_on_one_line`, `Escape.metadata_name_with_blank`, `Escape.text_survives_iff`, `Escape.trigraph_hides_quote`, `Ex.Compare.ge_unary_true`, `Ex.Compare.ge_unsound`, `Ex.Compare.gt_true_iff`, `Ex.Compare.identifier_compared`, `Ex.Compare.le_unsound`, `Ex.Compare.lengths_refused`, `Ex.Compare.lt_true_iff`, `Ex.Compare.number_unsound`, `Ex.Compare.number_with_number`, `Ex.Compare.numbers_compared`, `Ex.Compare.strict_sound`, `Ex.Compare.vector_with_number`, `Ex.arithmetic_read_as_in_c`, `Ex.assignment_read`, `Ex.boxed_use_missed`, `Ex.cReadAs_unique`, `Ex.call_without_arguments_gets_one`, `Ex.comparison_in_product_changes_value`, `Ex.conditional_in_sum_changes_value`, `Ex.contains_depends_partial`, `Ex.contains_iff_partial`, `Ex.depends_on_sound_partial`, `Ex.element_at`, `Ex.equal_but_different_hash`, `Ex.equal_hash_partial`, `Ex.equal_same_value_partial`, `Ex.equality_is_equivalence_partial`, `Ex.evaluate_all_known_partial`, `Ex.evaluate_ignores_boxed`, `Ex.evaluate_is_substitution_partial`, `Ex.evaluate_returns_defined`, `Ex.evaluate_returns_partial`, `Ex.factor_one_dropped`, `Ex.floor_division_by_one_rounds`, `Ex.floor_division_partial`, `Ex.generated_arithmetic_partial`, `Ex.generated_floating_point_partial`, `Ex.generated_meaning_partial`, `Ex.generated_whole_numbers_partial`, `Ex.identifier_equals_string`, `Ex.list_accepted_iff`, `Ex.list_of_numbers`, `Ex.list_values_partial`, `Ex.list_without_calls`, `Ex.logic_printed_as_written`, `Ex.negative_factor_changes_value`, `Ex.number_on_the_left_returns`, `Ex.operation_of_one`, `Ex.operation_with_number_raises`, `Ex.operators_preserve_value`, `Ex.operators_sound`, `Ex.opposite_of_negative_product_unreadable`, `Ex.opposite_subtracted_changes_value`, `Ex.parameter_bare`, `Ex.parsed_beginning`, `Ex.parsed_unique`, `Ex.place_text`, `Ex.power_of_literals_iff`, `Ex.power_of_operation_raises`, `Ex.power_of_variable_refused`, `Ex.power_partial`, `Ex.print_read_partial`, `Ex.python_numbers_partial`, `Ex.quotient_by_product_changes_value`, `Ex.quotient_of_literals_iff`, `Ex.readAs_unique`, `Ex.remainder_changes_meaning`, `Ex.rest_ignored`, `Ex.same_order_same_reading_partial`, `Ex.same_reading_iff`, `Ex.same_value_iff`, `Ex.second_number_ignored`, `Ex.shift_changes_meaning`, `Ex.sign_after_divide_refused`, `Ex.sign_after_minus_changes_meaning`, `Ex.sign_after_plus`, `Ex.sign_after_times_changes_meaning`, `Ex.sign_belongs_to_operand_iff`, `Ex.simplify_can_raise`, `Ex.simplify_preserves_value_partial`, `Ex.simplify_returns_defined`, `Ex.simplify_returns_partial`, `Ex.simplify_returns_valued`, `Ex.string_is_use`, `Ex.two_operators_iff`, `Ex.two_operators_listed`, `Ex.use_seen_partial`, `Ex.values_in_C_partial`, `Ex.verify_parameters_marks`, `Ex.verify_parameters_preserves_value`, `Ex.whole_partial`, `Ex.zero_dropped`, `Ex.zero_to_the_zero`, `Flags.final_quote_lost`, `Flags.included_dependency_lost`, `Hdf5.dict_order_lost`, `Hdf5.entry_names_ordered`, `Hdf5.instrument_again_partial`, `Hdf5.mode_lost`, `Hdf5.other_version_refused`, `Hdf5.outside_reference_raises`, `Hdf5.radians_lost`, `Hdf5.registry_priority_lost`, `Hdf5.save_then_load_partial`, `Hdf5.saved_is_loaded`, `Hdf5.sequence_again`, `Hdf5.types_of_one_name_confused`, `Hdf5.unknown_class_lost`, `Html.block_shown_iff`, `Html.escape_shown`, `Html.include_not_shown`, `Html.metadata_extra_quote`, `Html.value_shown`, `Include.Fast.all_parameters_iff`, `Include.Fast.parameters_partial`, `Include.include_spec`, `Include.read_instr`, `Include.read_ok_iff`, `Include.removable_left_out`, `Includes.Libraries.collect_ends_iff`, `Includes.Libraries.collected_iff`, `Includes.Libraries.collected_names`, `Includes.Libraries.in_order_iff`, `Includes.Libraries.never_written`, `Includes.Libraries.written_iff`, `Includes.Libraries.written_once_partial`, `Includes.Libraries.written_twice`, `Includes.cyclic_includes_raise`, `Includes.include_order_raises_iff`, `Includes.include_order_sound`, `Includes.include_order_transitive`, `Includes.valid_order_not_found`, `Instr.first_part_refers_to_whole`, `Instr.get_parameter_first`, `Instr.groups_collect_members`, `Instr.make_instance_group_lost`, `Instr.make_instance_partial`, `Instr.make_instance_removable_lost`, `Instr.mcpl_again_raises`, `Instr.mcpl_split_parts`, `Instr.mcpl_split_placement_partial`, `Instr.mcpl_split_succeeds`, `Instr.parameter_names_unique`, `Instr.parameters_are_first_definitions`, `Instr.part_of_a_word_counts`, `Instr.quotedName_spec`, `Instr.reference_to_replaced`, `Instr.split_parts`, `Instr.split_placement_partial`, `Instr.split_point_lost`, `Instr.split_succeeds`, `Instr.split_turns_component`, `Instr.unused_parameters_removed_partial`, `Instr.used_parameters_kept`, `Instr.user_section_ignored`, `InstrText.blank_extend_lost`, `InstrText.comment_refused`, `InstrText.component_called_none`, `InstrText.counted_jump_refused`, `InstrText.declare_not_same`, `InstrText.double_is_the_type`, `InstrText.empty_flag`, `InstrText.expression_default_lost`, `InstrText.flag_with_line_refused`, `InstrText.flags_not_same`, `InstrText.instance_again_partial`, `InstrText.instrument_again_partial`, `InstrText.jumpName_eq_iff`, `InstrText.jump_again_iff`, `InstrText.jump_target_renamed`, `InstrText.keyword_names_confused`, `InstrText.metadata_name_refused`, `InstrText.named_refers`, `InstrText.noacc_is_cpu`, `InstrText.omitted_rotation`, `InstrText.other_literals`, `InstrText.parameter_again_iff`, `InstrText.placement_again_partial`, `InstrText.plain_unit_refused`, `InstrText.previous_is_last`, `InstrText.previous_refers`, `InstrText.previous_too_far_is_absolute`, `InstrText.pyInt_digits`, `InstrText.reference_again`, `InstrText.references_again_iff`, `InstrText.rotation_reference_lost`, `InstrText.same_parameters_refused`, `InstrText.split_lost`, `InstrText.trace_again_partial`, `InstrText.translated_jump_refused`, `InstrText.unknown_name_is_absolute`, `InstrText.vector_refused`, `Life.display_runs`, `Life.finally_runs`, `Life.freed_once_iff`, `Life.freed_once_partial`, `Life.initialize_runs`, `Life.list_given_twice`, `Life.not_freed_iff`, `Life.save_runs`, `Lit.hexadecimal_constants`, `Lit.literal_keeps_value_iff`, `Lit.multiple_of_text_not_a_number`, `Lit.octal_literal_changes_value`, `Lit.sum_of_texts_changes_value`, `Loader.blanks_lost`, `Loader.combine_progress`, `Loader.combined_data`, `Loader.combined_error`, `Loader.combined_mean`, `Loader.combined_order`, `Loader.combined_statistics`, `Loader.combined_sums`, `Loader.data_entries`, `Loader.data_file_0d`, `Loader.data_file_1d_partial`, `Loader.data_file_2d`, `Loader.descriptions_kept`, `Loader.empty_text_refused`, `Loader.error_wrong`, `Loader.file_errors_wrong`, `Loader.files_order`, `Loader.files_sum`, `Loader.files_sum_2`, `Loader.first_file_loses`, `Loader.four_variables_refused`, `Loader.hash_lost`, `Loader.mark_in_parameter_loses`, `Loader.mark_in_title_refused`, `Loader.missing_attribute_refused`, `Loader.missing_entry_refused`, `Loader.no_dimension_refused`, `Loader.no_events_refused`, `Loader.only_compatible`, `Loader.orientation`, `Loader.orientation2`, `Loader.other_entries_lost`, `Loader.other_result_refused`, `Loader.parameter_added`, `Loader.parameter_lost`, `Loader.parameters_kept_iff`, `Loader.quadrature_iff`, `Loader.rays_added_iff`, `Loader.repeats_not_added`, `Loader.settings_combined`, `Loader.square_data_changed`, `Loader.summary_again_partial`, `Loader.wrong_size_refused`, `Loader.wrong_size_refused_2`, `Macros.definitions_balanced_partial`, `Macros.display_code_sees`, `Macros.extend_code_sees`, `Macros.parameter_takes_member_away`, `Macros.restore_macro`, `Macros.run_number_macro_stays`, `Macros.save_definitions_unbalanced`, `Macros.sections_tidy`, `Macros.trace_code_sees`, `Macros.trace_section_tidy_partial`, `Manage.Cache.asked`, `Manage.Cache.branch_stays`, `Manage.Cache.outside_removed`, `Manage.Cache.removes_cache_partial`, `Manage.Cache.removes_version_partial`, `Manage.Cache.version_gone`, `Names.counters_clash`, `Names.counters_distinct_partial`, `Names.declared_once_iff`, `Names.definition_parameter_not_declared`, `Names.empty_trace_block_not_declared`, `Names.parameter_macro_iff`, `Names.reserved_names_clash`, `Names.same_target_clash`, `Names.trace_blocks_not_empty`, `Names.uses_declared_partial`, `Orient.AxisAngle.either_axis`, `Orient.AxisAngle.euler`, `Orient.AxisAngle.half_turn_wrong`, `Orient.AxisAngle.one_axis_wrong`, `Orient.AxisAngle.right_about`, `Orient.AxisAngle.right_iff`, `Orient.AxisAngle.right_or_opposite`, `Orient.AxisAngle.rounded`, `Orient.AxisAngle.small_turn_dropped`, `Orient.AxisAngle.specialization_same_partial`, `Orient.AxisAngle.wrong_angle`, `Orient.absolute_rotation_ignored`, `Orient.add_right_iff`, `Orient.chain_inverse_partial`, `Orient.combine_reduce_partial`, `Orient.combine_same`, `Orient.euler_angles_lost_at_quarter_turn`, `Orient.euler_angles_roundtrip_partial`, `Orient.fromAngles_lit`, `Orient.from_angles_proper`, `Orient.half_turn_not_a_rotation`, `Orient.half_turn_placement_wrong`, `Orient.inverse_right_partial`, `Orient.placement_agrees_partial`, `Orient.radian_part_wrong`, `Orient.reduce_keeps_running_parts`, `Orient.reduce_no_adjacent_constants`, `Orient.reduce_preserves_partial`, `Orient.resolve_is_composition`, `Orient.rotationOfAngles_proper`, `Orient.rotation_part_angle_partial`, `Orient.run_time_angle_placement_wrong`, `Orient.run_time_angle_wrong`, `Orient.sub_position_iff`, `Orient.sub_position_wrong`, `Orient.sub_rotation_iff`, `Orient.sub_rotation_wrong`, `Orient.sub_self_partial`, `Particle.array_not_written`, `Particle.builtin_name_not_written`, `Particle.distance_by_name`, `Particle.distance_while_placing`, `Particle.index_by_name_iff`, `Particle.restored`, `Particle.unknown_name_read`, `Particle.variable_not_started`, `Particle.variables_started_partial`, `Particle.written_by_name`, `Range.mrange_iteration_ends`, `Range.mrange_len_matches_iff`, `Range.mrange_lists_exactly_the_grid`, `Range.mrange_no_step_no_values`, `Range.mrange_text_fields`, `Range.mrange_views_agree_partial`, `Range.mrange_views_disagree_backwards`, `Range.mrange_views_disagree_short`, `Reader.early_not_shown`, `Reader.report_partial`, `Reader.shown_iff`, `Reading.cycle_exhausts_limit`, `Reading.each_file_once`, `Reading.read_iff_defined`, `Reading.read_is_defined`, `Reading.returned_iff_no_cycle`, `Registry.Cache.answer_kept_iff`, `Registry.Cache.blank_in_key`, `Registry.Cache.cache_round_trip_iff`, `Registry.Cache.carriage_return_kept_once`, `Registry.Cache.given_ignored`, `Registry.Cache.given_kept_iff`, `Registry.Cache.read_clean`, `Registry.Tags.chosen_partial`, `Registry.Tags.known_tags_partial`, `Registry.Tags.known_versions`, `Registry.Tags.suffix_dropped`, `Registry.Tags.word_taken`, `Registry.added_registry_ignores_priority`, `Registry.capital_extension_not_found`, `Registry.chosen_has_priority`, `Registry.chosen_none_iff`, `Registry.cli_choice`, `Registry.cli_order`, `Registry.component_kept`, `Registry.default_output`, `Registry.dir_file`, `Registry.dir_known_raises`, `Registry.dir_unique_file`, `Registry.directories_agree_partial`, `Registry.form_directory`, `Registry.form_github_partial`, `Registry.form_module`, `Registry.generator_agrees_partial`, `Registry.h5_ignores_dirs`, `Registry.kept_registries`, `Registry.library_found_partial`, `Registry.library_missing`, `Registry.library_once`, `Registry.made_only`, `Registry.memory_add`, `Registry.memory_add_comp_partial`, `Registry.memory_instrument_unreadable`, `Registry.none_kept`, `Registry.not_address`, `Registry.outputs_collide`, `Registry.outputs_distinct`, `Registry.parsed_ignores_search`, `Registry.refused`, `Registry.remote_file_partial`, `Registry.remote_has_file`, `Registry.remote_known_raises`, `Registry.remote_returns_other_file`, `Registry.search_again_partial`, `Registry.search_directory`, `Registry.search_in_instrument_again`, `Registry.search_shell_raises`, `Registry.search_with_blank_raises`, `Registry.searched_is_used_first`, `Registry.searched_loses_to_memory`, `Registry.two_below_raise`, `Registry.url_alone_raises`, `Registry.version_is_file`, `Registry.web_address`, `Results.all_returned_iff`, `Results.dry_run_old`, `Results.rerun_partial`, `Results.results_partial`, `Results.returned`, `Runner.arguments_given`, `Runner.arguments_given_iff`, `Runner.mccode_run_given`, `Runner.process_count_refused`, `Runner.processes_given`, `Runner.runtime_args_spec`, `Runner.runtime_options_spec`, `Runner.scan_drops_aliases`, `Runner.scan_points_not_run_with_own_values`, `Runner.scan_runs_once_per_point_partial`, `Runner.second_mccode_run_raises`, `Runner.single_run_uses_values`, `Runner.sort_args_idempotent`, `Runner.sort_args_keeps_order`, `Runner.sort_args_moves_blocks`, `Runner.sort_args_permutes`, `Scan.bound_singulars_spec`, `Scan.grid_scan_is_product_partial`, `Scan.grid_scan_loses_short_range`, `Scan.linear_scan_accepts`, `Scan.linear_scan_lock_step`, `Scan.linear_scan_refuses_mismatch`, `Scan.linear_scan_scalar_fails`, `Setpos.array_initialised_partial`, `Setpos.backslash_in_unit`, `Setpos.comma_at_end`, `Setpos.escape_continued`, `Setpos.escaped_quote_at_end`, `Setpos.every_parameter_held`, `Setpos.expression_with_comma`, `Setpos.inch_mark`, `Setpos.list_for_scalar`, `Setpos.literal_held_iff`, `Setpos.literal_held_partial`, `Setpos.literals_joined_partial`, `Setpos.more_sizes`, `Setpos.nexus_text_partial`, `Setpos.nexus_written_partial`, `Setpos.no_default`, `Setpos.no_default_refused`, `Setpos.no_text_held`, `Setpos.null_not_a_text`, `Setpos.null_value_refused`, `Setpos.number_held`, `Setpos.parameter_in_list`, `Setpos.prefixed_literal`, `Setpos.quote_in_unit`, `Setpos.quotes_inside`, `Setpos.row_read_partial`, `Setpos.scalar_initialised`, `Setpos.text_cut`, `Setpos.text_expression_held`, `Setpos.value_not_recorded`, `Setpos.vector_held`, `Setpos.vector_name_held`, `Settings.save_keeps_partial`, `Settings.save_loses`, `Settings.saved_listing`, `Trace.changeCode_spec`, `Trace.copied_jump_wrong`, `Trace.eq_one_of_trace`, `Trace.funnel_agrees_partial`, `Trace.iterated_jump`, `Trace.jump_before_first_accepted`, `Trace.jump_targets_again`, `Trace.jump_targets_partial`, `Trace.jump_to_component_called_myself`, `Trace.references_get`, `Trace.skipable_spec`, `Trace.skipped_first_component_wrong`, `Trace.split_and_jump_lose_weight`, `Trace.split_conserves_weight`, `Trace.split_runs_each_copy_once`, `Trace.trace_ends`, `Trace.trace_in_own_frame_partial`, `Trace.translated_jump_stale`
* propext, Quot.sound (85): `Bins.repeated_refused`, `CEval.copied_type_lost`, `CEval.numbers_not_shared`, `CEval.type_as_asked_partial`, `Comp.add_output_spec`, `Comp.add_parameter_spec`, `Comp.component_parameter_names_unique`, `Comp.get_parameter_finds`, `Comp.written_section_replaces_partial`, `DT.division_type`, `DT.promotion_order_independent`, `Escape.no_trigraph_no_change`, `Ex.equality_not_symmetric`, `Ex.flag_again`, `Flags.assemble_flags`, `Flags.earlier_flags_kept`, `Flags.get_instrument_flags_partial`, `Flags.get_instrument_loses_own`, `Flags.make_instance_flags`, `Flags.parse_flags`, `Hdf5.big_integer_refused`, `Include.Fast.previous_first_refused`, `Include.Fast.previous_refused`, `Instr.add_component_spec`, `Instr.collected_metadata_of_instance`, `Instr.component_names_unique`, `Instr.copied_metadata_repeated`, `Instr.first_part_groups_partial`, `Instr.get_parameter_spec`, `Instr.lookup_returns_added_partial`, `Instr.lookup_unknown_raises_partial`, `Instr.make_instance_spec`, `Instr.metadata_is_last_definitions`, `Instr.metadata_last_wins`, `Instr.new_parameter`, `Instr.one_value_partial`, `Instr.overwrite_parameter_partial`, `Instr.repeated_parameter`, `Instr.rows_are`, `Instr.second_part_groups_stale`, `Instr.set_parameter_partial`, `Instr.set_parameter_returns`, `Instr.type_metadata_repeated`, `Instr.under_own_name_iff`, `Lit.decimal_literal_unchanged`, `Lit.literal_with_letter_unchanged`, `Lit.text_plus_number_refused`, `Macros.component_code_sees_parameters`, `Macros.extend_of_type`, `Macros.instrument_code_sees_parameters`, `Particle.int_variable_not_read`, `Particle.parameters_by_name`, `Particle.pointer_by_name`, `Particle.read_by_id_iff`, `Particle.read_by_name_iff`, `Particle.started`, `Range.mrange_text_roundtrip`, `Registry.Tags.found_are_versions`, `Registry.other_library`, `Results.old_returned`, `Results.returned_iff`, `Results.unreadable`, `Runner.directory_option_raises`, `Runner.first_program_always`, `Runner.nothing_run_without_parameters`, `Runner.run_cmd_given_iff`, `Save.contents_after_failure`, `Save.contents_partial`, `Save.nothing_saved`, `Save.saved_iff`, `Scan.command_line_parameters_spec`, `Scan.parse_list_spec`, `Scan.rowIndex_bijective`, `Scan.rowIndex_lt`, `Setpos.group_names_distinct`, `Setpos.instance_name_held_iff`, `Trace.funnel_stops_at_group`, `Trace.group_semantics_partial`, `Trace.jump_arrives`, `Trace.last_jump_decides`, `UserVars.ensure_again`, `UserVars.ensure_is`, `UserVars.one_variable_ensured_partial`, `UserVars.others_declared_twice`, `UserVars.others_not_ensured`
* propext (46): `Bins.metadata_found_iff`, `CDecl.decl_eq_not_transitive`, `Compile.commands`, `Compile.epoch_ignored`, `Compile.minor_out_of_range`, `Compile.runner_options`, `Compile.update_nothing_iff`, `Compile.update_partial`, `DT.promotion_laws`, `Ex.boxed_unflagged`, `Ex.conditions_unflagged`, `Ex.flagged_stays`, `Ex.member_prefixed`, `Ex.names_prefixed_partial`, `Ex.verify_parameters_preserves_dependence`, `Hdf5.unsaved_fields`, `Include.Fast.included_missing`, `Includes.Libraries.header_too_early`, `Instr.collected_metadata_of_instrument`, `Life.compatible_lists_fit`, `Loader.no_points_refused`, `Loader.orientation0`, `Loader.square_table_mixed`, `Loader.wrong_size_refused_0`, `Registry.Cache.file_used`, `Registry.kept_suffices`, `Runner.cut_words`, `Runner.program_given_raises`, `Runner.replace_makes_given`, `Runner.run_cmd_runs`, `Save.contents_current`, `Save.contents_stale`, `Save.source_iff`, `Save.translated_instrument`, `Scan.reads_unique`, `Settings.only_save_counts`, `Trace.funnel_and_regular_differ`, `Trace.funnel_group_not_restored`, `Trace.group_left_by_stale_mark`, `Trace.group_with_gap_wrong`, `Trace.group_with_skipped_leader_wrong`, `Trace.group_with_skipped_member_wrong_frame`, `Trace.jump_before_first_never_ends`, `Trace.jump_in_group_wrong`, `Trace.runJump_taken`, `Trace.split_zero_never_ends`
* none (16): `CEval.type_of_last`, `Comp.output_order_matters`, `Compile.new_options`, `Compile.nexus_lost`, `Compile.reached_single`, `DT.compatibility_laws`, `DT.promotion_is_max`, `DT.rank_injective`, `Instr.component_called_previous`, `Instr.determine_groups_again`, `Instr.overwrite_not_atomic`, `Instr.repeated_setting_held_twice`, `Instr.same_key_other_value`, `Manage.Cache.branches_shared`, `Runner.cut_unique`, `Settings.set_lost`
<!-- end generated -->

## Plan per property
* **C01** A MATLAB-style range lists, counts and indexes the same values. Verif/Range: MRange over Int and (via a common ordered-field version) Rat. `iter` is the generator loop with an explicit measure; `len`, `getitem` as in the code with truncating division. Proof: loop invariant. The code violates the claim when |stop-start|<|step| or the step points away: negation proved with witnesses, main theorem `_partial`.
* **C02** A range yields exactly the grid points between its end points. Verif/Range: membership characterisation of the loop's output, by the same loop invariant.
* **C03** A linear scan visits every parameter's values in lock step. Verif/Scan: value sources (range, singular, list) as lists plus kind; zip modelled as Python's shortest zip; proof by list lemmas. List of length one raises AttributeError: shown as error branch.
* **C04** A grid scan visits every combination exactly once. Verif/Scan: itertools.product modelled as its nested-loop definition; spec by mixed-radix index bijection / count.
* **C05** Command-line parameters are parsed unambiguously. Verif/Scan: word scanner as recursion on the list; spec is an inductive relation of tokenisations.
* **C06** Every scan point runs with its own parameter values. Verif/Runner: list of commands issued. Code passes the whole parameter dictionary at every point: negation, `_partial` for directories/number of runs.
* **C07** Reordering run arguments loses and duplicates nothing. Verif/Runner: sort_args loop as recursion; permutation, sublist and idempotence by induction.
* **C08** Data type promotion is order independent. Verif/DataType: finite type, total case analysis plus fold over chains.
* **C09** Building an expression with + - * / and unary minus preserves its value. Verif/Expr: inductive tree with lists restricted to scalars; denotation into a field (Rat) with partiality; each operator proved sound under stated side conditions; exceptions (0/0, 0**0, zero times undefined) as negations.
* **C10** Simplifying an expression preserves its value. Verif/Expr: structural induction.
* **C11** Evaluating with known identifiers is substitution. Verif/Expr: substitution lemma.
* **C12** depends_on is a sound independence check. Verif/Expr: independence by induction.
* **C13** Printing an expression and parsing it back preserves its value. Verif/ExprPrint: token printer as in the code and a precedence-climbing spec of the grammar; negations for a/(b*c), -(a*(-b)), a*(-b), a-(-b); partial round trip on the fragment where the printer is right.
* **C14** Equal expressions hash equally. Verif/ExprEq: equality and printed text (the hash input); negation plus partial theorem.
* **C15** Orientation chains compose and invert. Verif/Orient: 3x3 matrices over a commutative ring, rotations as (c,s) with c^2+s^2=1; chains as lists; induction. sin of 180 degrees special case is wrong: negation.
* **C16** Reducing a chain of parts does not change the transformation. Verif/Orient: loop invariant of `reduce`.
* **C17** The Python-side placement of a component agrees with the generated program's placement. Verif/Placement: both computations as recursion over reference chains; equality proved where references agree; explicit ROTATED ABSOLUTE with RELATIVE AT: negation.
* **C18** Angles recovered from a rotation reproduce the rotation. Verif/Euler: over the reals with Mathlib trigonometry, if time permits; otherwise partial.
* **C19** Component instance names stay unique. Verif/Instr: step function over operations, invariant by induction on histories.
* **C20** Instrument parameters stay unique and the first definition wins. Verif/Instr.
* **C21** Metadata: last definition of a name wins, none is duplicated. Verif/Instr.
* **C22** Setting an instance parameter is all or nothing. Verif/Instance: `_partial`, failure of atomicity and duplicates as negations.
* **C23** Instance metadata overrides component-type metadata. Verif/Instance.
* **C24** Splitting an instrument keeps every component, shares exactly one, and leaves no dangling reference. Verif/Split.
* **C25** Removing unused parameters removes exactly the unused ones. Verif/Instr: USERVARS is ignored by the code: negation and partial.
* **C26** Groups collect exactly their members. Verif/Groups: fold invariant.
* **C27** Jumps go where they say. Verif/Jump: heap of jump objects to model sharing; negation for COPY, partial for unshared.
* **C28** In every component the particle is expressed in that component's coordinate frame. Verif/Frames: frames as elements of a group acting on points (and concretely rotation/translation pairs); telescoping by induction; negation if component 0 is skipped.
* **C29** GROUP semantics of the generated trace loop. Verif/Raytrace: the emitted loop as an interpreter over an abstract component behaviour.
* **C30** FUNNEL and regular trace loops agree. Verif/Raytrace: FUNNEL interpreter; negation (off by one) with witness.
* **C31** SPLIT conserves statistical weight and the trace loop terminates. Verif/Raytrace (split).
* **C32** Text embedded in generated C strings survives. Verif/Escape: escape function over characters and a C literal reader; induction; `\xNN` followed by a hex digit: negation.
* **C33** Included files come before the files including them. Verif/Includes: sorting as an arbitrary permutation; the final checks give the order.
* **C34** Per-instance user variables never collide. Verif/UserVars: injectivity of `name_index`.
* **C35** Declaration equality is an equivalence. Verif/CDecl: negation of transitivity; partial.
* **C36** Array sizes are deduced correctly from initializer lists. Verif/InitSize: rewriting on characters; induction on nesting depth.
* **C37** Generated macro definitions are balanced. Verif/Macros: emitted directives as data; balance by induction; c_save's unbalanced definition as negation.
* **C38** Component and file look-up honours registry priority. Verif/Registry: stable insertion sort by priority.
* **C39** An in-memory registry returns what was stored. Verif/Registry.
* **C40** A remote registry only answers for the files it has. Verif/Registry: negation and partial.
* **C41** A SEARCHed directory is used first and only once. Verif/Registry.
* **C42** Saving and loading an instrument gives back the instrument. Verif/Hdf5: generic tree save/load.
* **C43** Stored sequence elements keep their order and count. Verif/Hdf5: padded decimal names, order and injectivity.
* **C44** Simulation summary files can be read back. Verif/SimFile.
* **C45** Combining repeated simulations adds counts and intensities. Verif/Combine: negation of the quadrature formula, partial.
* **C46** Data arrays are read in the orientation the header declares. Verif/DatFile: negation for n=m, theorem otherwise.
* **C47** Updating a compile target changes only what is asked. Verif/Compile: all flag bits.
* **C48** Splitting linker flags loses nothing. Verif/Compile.
* **C49** DEPENDENCY directives are substituted completely. Verif/Depend: string rewriting over characters.
* **C50** Version macros order as versions. Verif/Version: arithmetic.
* **C51** Printed placements read back as the same placement. Verif/InstrText.
* **C52** Printed jumps read back as the same jump. Verif/InstrText.
* **C53** PREVIOUS and named references resolve or raise. Verif/InstrText.
* **C54** Including an instrument merges it without loss. Verif/Include.
* **C55** Component parameter names stay unique across kinds. Verif/Comp.
* **C56** Sequential C variable evaluation uses current values. Verif/CEval.
* **C57** Compilation flags of an instrument survive reading. Verif/Reader.
* **C58** Run-time options have one meaning. Verif/Runner.
* **C59** A range's text form reads back as the same range. Verif/Range: split on colons over an abstract number printer with a left inverse.
* **C60** Repeated values are bounded by the longest range of a scan. Verif/Scan: direct characterisation.
* **C61** Expressions combine with plain Python numbers. Same model as C09, with a bare number as operand on either side; value by C09's lemmas, plus witnesses where Python raises instead.
* **C62** Floor division is the floor of the quotient. Model __floordiv__ of Value, UnaryOp, BinaryOp and Expr; case analysis; shortcuts for division by one checked against the floor.
* **C63** Powers have the right value. Model __pow__; the meaning of the power operation is any function obeying the laws of exponents zero and one.
* **C64** Equality of expressions is an equivalence. Model __eq__ of every class including Python's reflected dispatch; mutual induction on size for flat expressions; witness of asymmetry.
* **C65** Equal expressions have equal values. Mutual induction over the equality function and the meaning of expressions; commutation of + and * used by the code has to be sound; witness for identifiers equal to strings.
* **C66** A rotation part turns by the stated angle in the stated unit. Compare the model's matrix with the rotation matrix of the angle over the reals; negations for the half turn, radian and run-time angles.
* **C67** Group information of a split part refers to its own components. Copying keeps the groups as they are; compare with the closed form of determine_groups for the part. Expected to fail for the second part: prove the negation, and what holds for the first.
* **C68** A section written in a component defined as a copy replaces the copied section. Model the sections as lists of blocks and each clause as the visitor applies it; prove what each clause leaves; the clauses which append instead of replacing are the negation.
* **C69** JUMP semantics of the generated trace loop. On the machine of C28-C31: a jumping particle passes the components before its target untouched (induction on the component list); the counters of iterated jumps by induction on the number of rounds. A jump inside a group is the negation.
* **C70** Data files can be read back. Model writing and reading as functions on text lines; show each written line is read as its own entry, that repeated keys overwrite with the same value, and that the shape step undoes the printing order. Square one-dimensional data (as many points as variables) and texts ending in # are negations.
* **C72** A printed TRACE section reads back as the same instances. Model printing and reading on tokens with opaque expressions; show each clause is read back by its own reader function, then instances, then the list by induction with the instances read so far as scope. SPLIT is not printed, metadata names and blank EXTEND blocks are negations.
* **C71** Keywords of dependency strings are replaced by what they stand for. Model `re.sub` and `re.findall` for the patterns used, character by character. Induct over the keywords with the invariant that the text shows some keywords replaced by their values; negations for backslashes in values, words between keywords and values with keywords.
* **C73** Splitting an instrument at an MCPL file keeps both halves. Structure and success exactly; placement through C24; negations for a second split, for what the component at the split point does, and for references to it.
* **C74** make_instance adds the instance asked for. Exact characterisation without group and removable mark; negations for both.
* **C75** Assembler.component adds the component described or nothing. Relation saying what arguments mean, exact success condition, invariant over sequences; negations for an absolute rotation with a relative position, a failing parameter and flags of a failed call.
* **C76** Adjacent string literals are one text. Model the stripping and joining of the literals and reuse the reader of C literals of C32; prove that reading a text up to its quote does not depend on what follows unless it ends in an open escape sequence, then induct over the literals. Negations for an escaped quote at the end (every literal), continued escape sequences and encoding prefixes.
* **C77** Component parameters hold the values given. Model the statements written per parameter and a small semantics of them (arrays of characters, pointers, numbers; undefined behaviour and compile errors are none) with the variables of the program as an arbitrary environment. Exact conditions for texts, vectors and numbers; all parameters together by induction. Negations: texts with characters beyond ASCII are cut, NULL for a vector writes through a null pointer, instrument parameters in a list lose their prefix.
* **C78** Declared component variables hold their initial values. Model the assignments written (split at commas after stripping braces) and run them; exact condition for one-dimensional arrays of expressions without commas and braces with any blanks. Negations: more than one size (always), commas at the end (always), calls with commas, lists for structures (always).
* **C79** The table of instrument parameters has their defaults and units. Model the row from its fourth member on and reuse the reader of C literals: two literals are read up to the end of the row. Holds for literals and for texts without quotes, backslashes and line ends. Negations: without a default the table says None (always); a unit that is or ends with a quote makes the row invalid (always); backslashes are not escaped.
* **C80** Members of a particle are read and written by name. Model the generated if-chains and the switch over a particle whose members are typed cells; exact iff for reading, frame and read-back for writing; negations for int variables, arrays, pointers and variables with the name of a built-in member.
* **C81** A particle starts and is restored in the right state. State the restored particle member by member; position-wise agreement of signature and call; induction over the user variables; negation for other types, pointers and arrays, which stay uninitialised.
* **C82** Components are found by name at run time. Model the chains of comparisons and the distance functions over the array of positions filled so far; exact iff for the index; the distance functions read only known positions for known names; negation: an unknown name passes the check of setpos_getdistance and reads before the array.
* **C83** A printed instrument parameter is read back. Param.lean: print and read one parameter as tokens; iff.
* **C84** A printed instrument is read back as the same instrument. Whole.lean: print and read all sections, using C72 for TRACE and C83 for parameters; give the exact result for readable instruments and negations for merged flags, padded blocks and refused texts.
* **C85** An expression in an instrument has in the generated C the meaning its text has in C. Second reader CReads with C's order of operators; GInv invariant relating both readers; visit_den through the operators' soundness; visit_ar/ar_toks closure: arithmetic prints as arithmetic.
* **C86** A sign belongs to the operand behind it. The reader's rule for a missing operand; exact statement which operators take the sign away from its operand; the visitor's result and the generated text for each.
* **C87** Whole and floating point numbers keep C's arithmetic in the generated text. Typed C evaluation cval with tdiv; cval_den: where quotients come out even it agrees with rational evaluation; a closure class of number sets through all operators shows that floating point texts stay so; negations.
* **C88** An integer literal keeps its value. cInt: value of C99 constants on characters; model of int() on the lexer's texts; octal versus decimal value by induction from the end; decimal printing is the inverse on texts without leading zero.
* **C89** No identifier is declared twice in the generated program. Model the declarations as lists in the name spaces of C; prove an exact condition (iff) on the names of the instrument, then the general clashes (jump counters, reserved names, A and A_parameters, A and A_particle).
* **C90** What the generated program uses it declares. List the uses written per instance; prove each is among the declarations of C89's model; exact condition for the members behind macros, with the negation for DEFINITION parameters and for blank TRACE blocks not given through Comp.TRACE.
* **C91** The sections of an instrument run in order, once for each component. Verif/Life: the functions as lists of statements with composed names, a machine calling functions by name; names are distinct, so each call reaches the function meant; the events of every section as an equation.
* **C92** The memory of list parameters is allocated and freed exactly once. Verif/Life/Memory: exact condition for no invalid free (a list given twice is freed twice), exact condition for memory never freed (default lists).
* **C93** NeXus records name the instance and say its parameters. Verif/Setpos/Nexus.lean: model of the argument texts and of C reading an argument of type char*. Holds for plain numbers and lists (nexus_written_partial) and for texts whose default is a literal (nexus_text_partial); names differ (group_names_distinct). Negations: a text parameter without default has the argument None, NULL for a number removes the quotes around its default, instrument parameters are recorded by name and not by value, expressions with quotes inside break the literal.
* **C94** A power in an instrument is a power in the generated program. Verif/Expr/CPower.lean: the value of E1 ^ E2 in C (exclusive or of whole numbers, refused for others), and the tokens generated for a power of literals or variables. Exact: for two literals the value is the power iff it is known without computing; the exclusive or of a >= 2 and b >= 1 is never the power (xor_ne_pow).
* **C95** Running an instrument runs that instrument. Verif/Runner/Launch.lean: file system as a function from paths to entries, programs as what they were compiled from. Exact outcome of one call (run_cmd_runs, run_cmd_given_iff), and by induction over the calls: all run the program of the first (first_program_always, the negation). For mccode_run: never a wrong program, but the second call raises. Also: -d and programs given as files always raise.
* **C96** The directory, options and parameters of a run are the arguments of the program. Verif/Runner/Argv.lean: the text of the options and its split. Exact list of arguments (arguments_given), equal to the texts given iff none is empty or has white space (arguments_given_iff). Negation for --process-count, which becomes a list.
* **C97** The translator takes files from where the reader takes them. Model the list of registries a reader ends with, the one kept with the instrument and the sorted one of the translator; prove that both choose alike when the reader's list is in order (as after SEARCHing directories), and the negations for parsed instruments and for registries above a directory.
* **C98** A component read is the one its file defines, whatever was read before. Model get_component as a recursive function with a limit of nested calls on a state of known components and parsed files, with the visitor as a list of steps; define what a file defines as an inductive relation without a reader; prove equivalence, uniqueness of parsing, and that the limit is reached iff a cycle of COPY can be.
* **C99** Each metadata of an instance is in the table of the program under its name. Model METADATA as written in types, instances and copies with the source each reading function sets; give the exact rows; prove when the source of a row is the instance and when rows with one key have one value; negations for the metadata of types, of copies, and for instances called like a type.
* **C100** Instances written without a name get names that do not clash. Model the names as text made of the decimal count; show the last underscore splits a counted name, so counts can be read off; exact condition for refusal; negations for inclusion and for written names.
* **C101** ensure_user_var declares a user variable exactly once. Model the loop over blocks for any parser; exact effect; exactness for one variable by uniqueness of names; negations for texts with more variables.
* **C102** Assembler.parameters adds the parameters described or none. Model the branches on the kind of value, with the instrument as left by an exception; a relation says what an argument describes; induction on the arguments; negations for the documented pair and for all or nothing.
* **C103** The HTML view of an instrument shows its text. Model what is shown of HTML as a machine on characters (text, tag, character reference); escaped text is shown as it is by induction; a length argument makes the condition for sections exact; negations for files included in angle brackets and for metadata.
* **C104** Variables declared in C sections become members with the declaration as written. Model the tree with the text between tokens and the visitor's text replacement; show the replacement changes nothing iff the text does not occur; induct over dimensions; combine with as_struct_member; negations for each way the text is damaged.
* **C105** A remote registry knows the same files every time. Model reading and writing of the list on characters; anything read is clean (invariant); clean dictionaries round trip; so exact conditions; negations for given lists, carriage returns and blanks in names.
* **C106** A comparison of expressions is true only if it holds. Model Python's choice of method for operands of each kind; characterise when each comparison of elements is false; lift to lists with Forall2; negations for >= and <= with unary operations and for numbers.
* **C107** Each library that is needed is written once. Model the recursive collection with the depth of calls as fuel and files as the lists they include; characterise what is collected by reachability and when it ends by accessibility; the same for writing; negations where a source needs a library that no header includes.
* **C108** The axis and angle of a rotation are those of the rotation. Take any unit vector left alone by the matrix as the axis; prove Euler's theorem for it from orthogonality and determinant; then compare the signs of the matrix and the trial matrix to find exactly when the angle is right.
* **C109** The version of the remote files is a tag of their repository. Model the regular expression as a scanner; show that characters outside of versions separate matches; then the lines of an answer are scanned one by one.
* **C110** Removing a cache removes that cache. Paths as lists of parts, joined and resolved as pathlib and the system do; files removed are those below the target; compare with where a registry keeps its files.
* **C111** Orientations can be combined, added, subtracted and inverted. Positions are translations and rotations have no translation (invariant of placing and reducing); compute the composed transformations; state exactly when they are right.
* **C112** A syntax error is shown with its line. Python slices with negative indices; the logged messages as a list; exactly when the line is the message before the mark.
* **C113** The run-time header is configured with the version of the library. re.sub from left to right over texts made of plain parts and keys; the configuration as a partial map per project; the choice of the registry.
* **C114** Reading only the parameters gives the parameters of the instrument. Both visitors as functions of the parameters and the items of TRACE; inclusion as an inductive relation; prefix, and exactly when all.
* **C115** A text given for an expression is read as a whole. With the reader of C13: what is read is a beginning of the text; induction over the reader shows that what follows an expression does not matter.
* **C116** A run returns the data files it wrote. The file system is a list of data files; induction over the files listed gives what each name is bound to.
* **C117** The program a translator gives is whole. Parts are functions that print, change the instrument and may raise; an inductive relation says what a whole program is; induction over parts and over sequences of calls.
* **C118** The entries and bins of a data file are those it says. Rational arithmetic gives each boundary in closed form; the rest follows.
* **C119** A list given for an array parameter holds the values written. The value of what the visitor makes of a tree is known from C85; what is left is the payload of its first node, by cases.
* **C120** A name of an instrument parameter means that parameter in every expression. Structural induction over expressions, both for the list of names written and for the value.
* **C121** The command line translators use the directories given, in order. The sorted list in closed form, then induction over the directories.
* **C122** The configuration commands do what they say. Look-up in a list of sources; the saved source is what the first source has for each key, so that to look there first changes nothing, by induction over the sources.
* **C123** The library of the program is among the registries an instrument is read with. ensure_registry in closed form; the choice from C38's theorems about sorted registries.
* **C124** An instrument is compiled exactly if the configured compiler works. An invariant of the caches, by induction over the calls.
* **C125** A name is in an expression exactly if the expression uses it. Both questions in terms of the texts at the leaves, by induction over the tree; then C12 for the values.
* **C126** The specification of a registry makes the registry documented for its form. The words of texts joined by blanks; then by cases on the four forms; the converse by cases on the number of words.
