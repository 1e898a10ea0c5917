{"id": "C01", "title": "A MATLAB-style range lists, counts and indexes the same values", "statement": "For a range start:step:stop, the values produced by iterating it are exactly r[0], r[1], ..., r[len(r)-1], in order, where r[i] = start + i*step.", "quantifier": "every start, stop and non-zero step (exact arithmetic) for which the constructor does not raise", "why_tests_cant": "The agreement of three independently written methods must hold for infinitely many (start, stop, step); the failing region (|stop-start| < |step|, or a step pointing away from stop) is easy to miss with samples.", "anchors": ["src/mccode_antlr/run/range.py:MRange.__iter__", "src/mccode_antlr/run/range.py:MRange.__len__", "src/mccode_antlr/run/range.py:MRange.__getitem__"]}
{"id": "C02", "title": "A range yields exactly the grid points between its end points", "statement": "Iterating start:step:stop with the step pointing from start to stop yields a value v if and only if v = start + i*step for a natural i and v does not pass stop; it never yields a value twice and yields them in step order.", "quantifier": "every start, stop, non-zero step in exact arithmetic with |stop-start| >= |step| and the step pointing at stop", "why_tests_cant": "Completeness (no grid point is skipped) and termination are statements about every range, not about sampled ranges.", "anchors": ["src/mccode_antlr/run/range.py:MRange.__iter__"]}
{"id": "C03", "title": "A linear scan visits every parameter's values in lock step", "statement": "parameters_to_scan(parameters, grid=False) reports n points and yields exactly n tuples; tuple i holds, for every parameter in dictionary order, its i-th value, or its single value if it has only one; parameters with different lengths (other than one) are refused.", "quantifier": "every dictionary of ranges, singular values and lists", "why_tests_cant": "The pairing of positions and the all-or-error behaviour depends on every combination of lengths.", "anchors": ["src/mccode_antlr/run/range.py:parameters_to_scan"]}
{"id": "C04", "title": "A grid scan visits every combination exactly once", "statement": "parameters_to_scan(parameters, grid=True) reports n = the product of the lengths and yields exactly the Cartesian product of the values: each combination appears exactly once (positions counted), with the last parameter varying fastest.", "quantifier": "every dictionary of ranges, singular values and lists of any lengths", "why_tests_cant": "Exhaustiveness of a product over arbitrarily many axes needs induction.", "anchors": ["src/mccode_antlr/run/range.py:parameters_to_scan"]}
{"id": "C05", "title": "Command-line parameters are parsed unambiguously", "statement": "parse_command_line_parameters accepts any interleaving of `name=value` and `name value`, assigns every name the value following it (the last one wins), leaves its input list unchanged, and raises on an unpaired name rather than dropping a word.", "quantifier": "every list of words", "why_tests_cant": "Index arithmetic of a hand-written scanner over arbitrary word lists.", "anchors": ["src/mccode_antlr/run/range.py:parse_command_line_parameters", "src/mccode_antlr/run/range.py:parse_list"]}
{"id": "C06", "title": "Every scan point runs with its own parameter values", "statement": "When a scan is executed, the k-th invocation of the binary is given the k-th tuple of parameter values of the scan, and writes to its own directory.", "quantifier": "every set of scanned parameters and every number of points", "why_tests_cant": "The effect is only visible when comparing the commands of all points of an arbitrary scan.", "anchors": ["src/mccode_antlr/run/runner.py:mccode_run_scan", "src/mccode_antlr/run/runner.py:mccode_runtime_parameters"]}
{"id": "C07", "title": "Reordering run arguments loses and duplicates nothing", "statement": "sort_args returns a permutation of its arguments in which the options (with the value word that directly follows them) come first and keep their order, the remaining words keep theirs, and sorting twice equals sorting once.", "quantifier": "every list of argument words", "why_tests_cant": "Permutation and idempotence are universally quantified over word lists.", "anchors": ["src/mccode_antlr/run/runner.py:sort_args"]}
{"id": "C08", "title": "Data type promotion is order independent", "statement": "Combining data types with + (also - and *) is commutative, associative and idempotent, `undefined` is neutral, and the result is an upper bound of both arguments, so the type of a compound expression does not depend on how it is associated.", "quantifier": "all data types and all finite chains of them", "why_tests_cant": "Needed for all chains; and the refusal behaviour of `compatible` (not transitive) only shows over triples.", "anchors": ["src/mccode_antlr/common/expression.py:DataType.__add__", "src/mccode_antlr/common/expression.py:DataType.compatible"]}
{"id": "C09", "title": "Building an expression with + - * / and unary minus preserves its value", "statement": "The Python operators on expressions return an expression whose numeric value, for every assignment of its identifiers, equals the operation applied to the values of its arguments (whenever that operation is defined), whatever constant folding or neutral-element elimination happened.", "quantifier": "every pair of scalar numeric expressions and every assignment of identifiers", "why_tests_cant": "Constant folding has ~10 special cases per operator, which interact over infinitely many expression shapes and values.", "anchors": ["src/mccode_antlr/common/expression.py:Value.__add__", "src/mccode_antlr/common/expression.py:Value.__sub__", "src/mccode_antlr/common/expression.py:Value.__mul__", "src/mccode_antlr/common/expression.py:Value.__truediv__", "src/mccode_antlr/common/expression.py:Op.__add__", "src/mccode_antlr/common/expression.py:Op.__mul__"]}
{"id": "C10", "title": "Simplifying an expression preserves its value", "statement": "simplify() returns an expression with the same value as the original under every assignment of its identifiers for which the original is defined.", "quantifier": "every expression tree and every assignment", "why_tests_cant": "Universal over trees; needs structural induction.", "anchors": ["src/mccode_antlr/common/expression.py:BinaryOp.simplify", "src/mccode_antlr/common/expression.py:UnaryOp.simplify", "src/mccode_antlr/common/expression.py:TrinaryOp.simplify"]}
{"id": "C11", "title": "Evaluating with known identifiers is substitution", "statement": "e.evaluate(known) has, under every assignment, the value e has under the assignment updated with the values of `known`; if every identifier of e is known the result no longer depends on the assignment.", "quantifier": "every expression, every (partial) dictionary of known values, every assignment", "why_tests_cant": "The substitution lemma ranges over all trees and environments.", "anchors": ["src/mccode_antlr/common/expression.py:Value.evaluate", "src/mccode_antlr/common/expression.py:BinaryOp.evaluate", "src/mccode_antlr/common/expression.py:Expr.evaluate"]}
{"id": "C12", "title": "depends_on is a sound independence check", "statement": "If e.depends_on(x) is False then changing the value of identifier x never changes the value of e; and marking parameters (verify_parameters) never changes the value of an expression, only the prefix with which identifiers print.", "quantifier": "every expression, identifier and pair of assignments differing only at that identifier", "why_tests_cant": "Independence is a hyperproperty over pairs of environments.", "anchors": ["src/mccode_antlr/common/expression.py:BinaryOp.depends_on", "src/mccode_antlr/common/expression.py:Value.depends_on", "src/mccode_antlr/common/expression.py:Value.verify_parameters"]}
{"id": "C13", "title": "Printing an expression and parsing it back preserves its value", "statement": "The C/instr text printed for an expression, read back with the grammar's operator precedences, has the same value as the expression.", "quantifier": "every expression tree over the operators of the grammar", "why_tests_cant": "The printer decides on parentheses locally; whether this is enough can only be settled for all trees.", "anchors": ["src/mccode_antlr/common/expression.py:BinaryOp._str_repr_", "src/mccode_antlr/common/expression.py:UnaryOp._str_repr_", "src/grammar/McCommon.g4:expr"]}
{"id": "C14", "title": "Equal expressions hash equally", "statement": "Two expressions which compare equal have equal hashes, so that sets and dictionaries of expressions (and of objects holding them) treat them as one.", "quantifier": "every pair of expressions", "why_tests_cant": "A relation over all pairs, with a commutativity special case in equality that hashing ignores.", "anchors": ["src/mccode_antlr/common/expression.py:BinaryOp.__eq__", "src/mccode_antlr/common/expression.py:Op.__hash__", "src/mccode_antlr/common/expression.py:Value.__hash__"]}
{"id": "C15", "title": "Orientation chains compose and invert", "statement": "The transformation of a chain of parts is the composition of its parts in order; the inverse of a chain composed with the chain is the identity; every rotation constructed from angles is a proper orthogonal matrix.", "quantifier": "every finite chain of translations and rotations, every angle", "why_tests_cant": "Chains have unbounded length and angles are real numbers.", "anchors": ["src/mccode_antlr/instr/orientation.py:Parts.resolve", "src/mccode_antlr/instr/orientation.py:Parts.inverse", "src/mccode_antlr/instr/orientation.py:Seitz.inverse", "src/mccode_antlr/instr/orientation.py:Rotation.from_angles"]}
{"id": "C16", "title": "Reducing a chain of parts does not change the transformation", "statement": "Parts.reduce() denotes the same transformation as the original chain for all values of the run-time parameters.", "quantifier": "every chain with arbitrary constant and parameter dependent parts", "why_tests_cant": "reduce merges and drops elements in a loop with four branches; only induction over the chain settles it.", "anchors": ["src/mccode_antlr/instr/orientation.py:Parts.reduce", "src/mccode_antlr/instr/orientation.py:Part.is_identity"]}
{"id": "C17", "title": "The Python-side placement of a component agrees with the generated program's placement", "statement": "For a component placed AT v RELATIVE a ROTATED r RELATIVE b, the absolute position and rotation computed by the instance's orientation equal those computed at run time by the code that is generated for it, through any chain of references.", "quantifier": "every forest of reference chains of any depth, every position and angle", "why_tests_cant": "Two implementations of a recursive definition have to agree for all reference trees.", "anchors": ["src/mccode_antlr/instr/instance.py:Instance.__post_init__", "src/mccode_antlr/instr/orientation.py:Orient.from_dependent_orientations", "src/mccode_antlr/translators/c_initialise.py:cogen_comp_init_position"]}
{"id": "C18", "title": "Angles recovered from a rotation reproduce the rotation", "statement": "orientation.angles() returns angles which, fed back into the rotation constructor, give the same rotation matrix.", "quantifier": "every rotation matrix reachable from angles", "why_tests_cant": "A statement about all reals, with gimbal-lock special cases of measure zero.", "anchors": ["src/mccode_antlr/instr/orientation.py:axes_euler_angles", "src/mccode_antlr/instr/orientation.py:atan2_value", "src/mccode_antlr/instr/orientation.py:cos_from_sin_value"]}
{"id": "C19", "title": "Component instance names stay unique", "statement": "After any sequence of additions (direct, make_instance, includes) all component instance names of an instrument are distinct, a refused addition leaves the instrument unchanged, and looking a component up by name returns the one that was added under it.", "quantifier": "every history of additions", "why_tests_cant": "An invariant over arbitrary histories.", "anchors": ["src/mccode_antlr/instr/instr.py:Instr.add_component", "src/mccode_antlr/instr/instr.py:Instr.make_instance", "src/mccode_antlr/instr/instr.py:Instr.get_component"]}
{"id": "C20", "title": "Instrument parameters stay unique and the first definition wins", "statement": "After any sequence of add_parameter calls parameter names are unique, a repeated name is refused or ignored as requested, and get_parameter returns the first definition.", "quantifier": "every history of additions", "why_tests_cant": "Invariant over histories.", "anchors": ["src/mccode_antlr/instr/instr.py:Instr.add_parameter", "src/mccode_antlr/instr/instr.py:Instr.get_parameter"]}
{"id": "C21", "title": "Metadata: last definition of a name wins, none is duplicated", "statement": "After any sequence of add_metadata calls each name occurs once, carries the last added value, and names never re-added keep their relative order.", "quantifier": "every history of additions", "why_tests_cant": "Invariant over histories.", "anchors": ["src/mccode_antlr/instr/instr.py:Instr.add_metadata", "src/mccode_antlr/instr/instance.py:Instance.add_metadata"]}
{"id": "C22", "title": "Setting an instance parameter is all or nothing", "statement": "set_parameter either raises and leaves the instance as it was, or makes get_parameter return the new value (overwrite) or keeps the first value (repeats allowed), without affecting any other parameter and without ever holding two values for one name.", "quantifier": "every instance state and call, every history of calls", "why_tests_cant": "Failure atomicity and non-interference over arbitrary histories.", "anchors": ["src/mccode_antlr/instr/instance.py:Instance.set_parameter", "src/mccode_antlr/instr/instance.py:Instance.get_parameter"]}
{"id": "C23", "title": "Instance metadata overrides component-type metadata", "statement": "collect_metadata of an instance contains each metadata name exactly once, with the instance's entry whenever it has one and the type's otherwise, and nothing else; the instrument's collection is the concatenation over instances followed by the instrument's own.", "quantifier": "every pair of metadata lists", "why_tests_cant": "For all lists with arbitrary overlaps.", "anchors": ["src/mccode_antlr/instr/instance.py:Instance.collect_metadata", "src/mccode_antlr/instr/instr.py:Instr.collect_metadata"]}
{"id": "C24", "title": "Splitting an instrument keeps every component, shares exactly one, and leaves no dangling reference", "statement": "split(at) returns two instruments whose component lists are the prefix up to and including `at` and the suffix starting with `at`; every reference in the second points into the second or has become absolute, and the absolute placement of every component is unchanged.", "quantifier": "every instrument and split point", "why_tests_cant": "Reference closure over arbitrary reference graphs.", "anchors": ["src/mccode_antlr/instr/instr.py:Instr.split", "src/mccode_antlr/instr/instr.py:Instr.copy"]}
{"id": "C25", "title": "Removing unused parameters removes exactly the unused ones", "statement": "check_instrument_parameters(remove=True) keeps, in order, exactly the parameters which occur somewhere in the instrument (instances or any code section) and returns the number of removed ones.", "quantifier": "every instrument", "why_tests_cant": "No used parameter may ever be lost; universally quantified over where the use is.", "anchors": ["src/mccode_antlr/instr/instr.py:Instr.check_instrument_parameters", "src/mccode_antlr/instr/instr.py:Instr.parameter_used"]}
{"id": "C26", "title": "Groups collect exactly their members", "statement": "After determine_groups a group exists for exactly the group names used, holds exactly the indices of the instances naming it in increasing order, group numbers are distinct and in order of first use; the first member (and only it) is the leader and the last id is the last member.", "quantifier": "every list of instances", "why_tests_cant": "Invariant of a fold over arbitrary component lists.", "anchors": ["src/mccode_antlr/instr/instr.py:Instr.determine_groups", "src/mccode_antlr/instr/group.py:Group"]}
{"id": "C27", "title": "Jumps go where they say", "statement": "After translation every JUMP of every component has as absolute target the index of the named component, or its own component's index plus the relative offset.", "quantifier": "every instrument, including components made as copies of other components with jumps", "why_tests_cant": "A resolution pass with shared mutable objects: aliasing only shows for some histories.", "anchors": ["src/mccode_antlr/translators/target.py:TargetVisitor.set_jump_absolute_targets", "src/mccode_antlr/instr/instance.py:Instance.from_instance"]}
{"id": "C28", "title": "In every component the particle is expressed in that component's coordinate frame", "statement": "When the generated trace loop enters the body of component k without jumping, the particle's coordinates equal the absolute coordinates transformed into the frame of component k, whatever coordinate changes were skipped in between.", "quantifier": "every sequence of component frames and every choice of skippable components", "why_tests_cant": "A telescoping product over arbitrarily many components and skip patterns.", "anchors": ["src/mccode_antlr/translators/c_initialise.py:cogen_comp_init_position", "src/mccode_antlr/translators/c_initialise.py:cogen_initialize", "src/mccode_antlr/translators/target.py:TargetVisitor.detect_skipable_transforms", "src/mccode_antlr/translators/c_raytrace.py:cogen_raytrace"]}
{"id": "C29", "title": "GROUP semantics of the generated trace loop", "statement": "A particle entering a group is offered to its members in order, each member seeing the state saved at group entry (in its own frame); the first member that scatters it ends the group and the particle continues with the component after the last member; if no member scatters it, it is absorbed at the last member.", "quantifier": "every group length, every component behaviour, every particle", "why_tests_cant": "A statement about all executions of generated code.", "anchors": ["src/mccode_antlr/translators/c_raytrace.py:cogen_raytrace"]}
{"id": "C30", "title": "FUNNEL and regular trace loops agree", "statement": "For the same instrument without jumps, the FUNNEL-style trace and the regular trace send a particle through the same sequence of components.", "quantifier": "every instrument with groups, every component behaviour, every particle", "why_tests_cant": "Equivalence of two generated programs for all executions.", "anchors": ["src/mccode_antlr/translators/c_raytrace.py:cogen_raytrace_funnel"]}
{"id": "C31", "title": "SPLIT conserves statistical weight and the trace loop terminates", "statement": "The copies made by SPLIT n carry together the weight of the particle that was split, each copy runs the remaining components once, and the trace loop ends for every particle of an instrument without backward jumps.", "quantifier": "every nesting of splits, every repetition count and particle weight", "why_tests_cant": "Quantifies over executions and counts.", "anchors": ["src/mccode_antlr/translators/c_raytrace.py:cogen_raytrace"]}
{"id": "C32", "title": "Text embedded in generated C strings survives", "statement": "The characters of a metadata value embedded in the generated program as a C string literal, when read by a C compiler, are the original characters; in particular the literal cannot be closed early or span lines.", "quantifier": "every string", "why_tests_cant": "Injection safety must hold for every string.", "anchors": ["src/mccode_antlr/common/utilities.py:escape_str_for_c", "src/mccode_antlr/translators/c_header.py"]}
{"id": "C33", "title": "Included files come before the files including them", "statement": "sort_include_hierarchy returns each included name once, all names that are included, and every file after all the files it includes; it raises instead of returning a wrong order.", "quantifier": "every finite include graph", "why_tests_cant": "Ordering correctness over all graphs, independent of the comparator used inside.", "anchors": ["src/mccode_antlr/translators/c.py:sort_include_hierarchy"]}
{"id": "C34", "title": "Per-instance user variables never collide", "statement": "The particle-structure members generated for the USERVARS of component instances have distinct names for distinct (variable, instance) pairs, and conflicting declarations are refused.", "quantifier": "every pair of variable names and instance indices", "why_tests_cant": "Injectivity of a name mangling over infinitely many names.", "anchors": ["src/mccode_antlr/translators/c.py:CTargetVisitor._determine_uservars", "src/mccode_antlr/translators/c_listener.py:CDeclarator.copy"]}
{"id": "C35", "title": "Declaration equality is an equivalence", "statement": "Equality of parsed C declarations is reflexive, symmetric and transitive, and declarations of different types are different.", "quantifier": "every triple of declarations", "why_tests_cant": "Relation over all triples.", "anchors": ["src/mccode_antlr/translators/c_listener.py:CDeclarator.__eq__", "src/mccode_antlr/translators/c_listener.py:not_both_None_or_not_equal"]}
{"id": "C36", "title": "Array sizes are deduced correctly from initializer lists", "statement": "extract_initializer_size applied to the text of a rectangular nested initializer list of shape (d1,...,dk) returns (d1,...,dk).", "quantifier": "every rectangular nested initializer list of any depth", "why_tests_cant": "Universal over nesting depth and sizes.", "anchors": ["src/mccode_antlr/translators/c_listener.py:extract_initializer_size"]}
{"id": "C37", "title": "Generated macro definitions are balanced", "statement": "In each generated section every parameter macro that is defined is undefined again before the section ends, and every emitted definition has balanced parentheses.", "quantifier": "every component and instrument parameter list", "why_tests_cant": "Universal over lists; a leaked macro shows only with particular name combinations.", "anchors": ["src/mccode_antlr/translators/c_defines.py:cogen_parameter_define", "src/mccode_antlr/translators/c_defines.py:cogen_parameter_undef", "src/mccode_antlr/translators/c_save.py", "src/mccode_antlr/translators/c_finally.py", "src/mccode_antlr/translators/c_initialise.py"]}
{"id": "C38", "title": "Component and file look-up honours registry priority", "statement": "The registry chosen for a name is one that knows the name and no registry that knows it has a higher priority; among equal priorities the first registered wins; looking up the same component twice gives the same definition.", "quantifier": "every list of registries, priorities and names", "why_tests_cant": "Universal over registry lists; stability of sorting.", "anchors": ["src/mccode_antlr/reader/registry.py:ordered_registries", "src/mccode_antlr/reader/reader.py:Reader.locate", "src/mccode_antlr/reader/reader.py:Reader.get_component"]}
{"id": "C39", "title": "An in-memory registry returns what was stored", "statement": "After add_comp(name, text)/add_instr/add the registry knows the name and its contents are the last text stored under it, other names are unaffected.", "quantifier": "every history of additions", "why_tests_cant": "Key/value store semantics over histories.", "anchors": ["src/mccode_antlr/reader/registry.py:InMemoryRegistry"]}
{"id": "C40", "title": "A remote registry only answers for the files it has", "statement": "If a registry says it knows file f then the path it returns for f is the path of a file called f.", "quantifier": "every set of remote file names and every requested name", "why_tests_cant": "String matching by suffix/substring fails only for particular name pairs.", "anchors": ["src/mccode_antlr/reader/registry.py:RemoteRegistry.known", "src/mccode_antlr/reader/registry.py:RemoteRegistry.fullname"]}
{"id": "C41", "title": "A SEARCHed directory is used first and only once", "statement": "After SEARCH a directory, its components take precedence over all previously registered ones of no higher priority, and repeating the same SEARCH does not register it again.", "quantifier": "every list of registries and search directives", "why_tests_cant": "History property.", "anchors": ["src/mccode_antlr/reader/reader.py:Reader.handle_search_keyword", "src/mccode_antlr/reader/registry.py:registries_match"]}
{"id": "C42", "title": "Saving and loading an instrument gives back the instrument", "statement": "HDF5IO.load(HDF5IO.save(x)) equals x for every supported value, recursively through tuples, lists, dictionaries and data classes.", "quantifier": "every tree of supported values", "why_tests_cant": "Structural induction over arbitrary trees.", "anchors": ["src/mccode_antlr/io/hdf5.py:HDF5IO", "src/mccode_antlr/io/utils.py"]}
{"id": "C43", "title": "Stored sequence elements keep their order and count", "statement": "The names given to the elements of a stored sequence are distinct and their lexicographic order is the element order, so that the loaded sequence is the saved one.", "quantifier": "every sequence length", "why_tests_cant": "Zero-padding arithmetic for every length.", "anchors": ["src/mccode_antlr/io/hdf5.py:IterableIO"]}
{"id": "C44", "title": "Simulation summary files can be read back", "statement": "Reading the text written for a simulation summary gives back the same summary.", "quantifier": "every summary", "why_tests_cant": "Round trip over all contents.", "anchors": ["src/mccode_antlr/loader/simfile.py:SimFile"]}
{"id": "C45", "title": "Combining repeated simulations adds counts and intensities", "statement": "Combining data of repeated simulations sums the ray counts, event counts and intensities and combines the errors in quadrature; the result does not depend on the order in which more than two are combined.", "quantifier": "every list of compatible results", "why_tests_cant": "Associativity/commutativity and exact formula for all values.", "anchors": ["src/mccode_antlr/loader/simfile.py:SimFileData.combine", "src/mccode_antlr/loader/datfile.py:combine_scan_data", "src/mccode_antlr/loader/datfile.py:combine_scan_dicts"]}
{"id": "C46", "title": "Data arrays are read in the orientation the header declares", "statement": "A 1-D data file with n points and m declared variables yields, for each declared variable, its n values, for every n and m.", "quantifier": "every n, m and table", "why_tests_cant": "Fails only for n = m.", "anchors": ["src/mccode_antlr/loader/datfile.py:DatFile1D.__post_init__"]}
{"id": "C47", "title": "Updating a compile target changes only what is asked", "statement": "CBinaryTarget.update(d) sets exactly the options present in d and leaves the others as they were; update({}) changes nothing.", "quantifier": "every target state and dictionary", "why_tests_cant": "All combinations of option bits.", "anchors": ["src/mccode_antlr/compiler/c.py:CBinaryTarget.update"]}
{"id": "C48", "title": "Splitting linker flags loses nothing", "statement": "The split of compiler flags into compile-time and link-time groups is a partition of the flags that keeps the order within each group.", "quantifier": "every list of flags", "why_tests_cant": "Universal over lists.", "anchors": ["src/mccode_antlr/compiler/c.py:linux_split_flags", "src/mccode_antlr/compiler/c.py:windows_split_flags"]}
{"id": "C49", "title": "DEPENDENCY directives are substituted completely", "statement": "In a dependency string every ENV(...), GETPATH(...) and CMD(...) directive is replaced by its value, text outside directives is unchanged, and malformed directives raise.", "quantifier": "every string and every replacement function", "why_tests_cant": "String rewriting over arbitrary strings.", "anchors": ["src/mccode_antlr/instr/instr.py:Instr._replace_env_getpath_cmd"]}
{"id": "C50", "title": "Version macros order as versions", "statement": "The integer written for the McCode version in generated programs orders two versions as the versions themselves are ordered.", "quantifier": "every pair of versions (components within the documented ranges)", "why_tests_cant": "Order embedding over all triples.", "anchors": ["src/mccode_antlr/config/__init__.py"]}
{"id": "C51", "title": "Printed placements read back as the same placement", "statement": "The AT/ROTATED text printed for an instance, read back, gives the same position, rotation and references.", "quantifier": "every placement", "why_tests_cant": "Depends on the combination of omitted parts.", "anchors": ["src/mccode_antlr/instr/instance.py:_triplet_ref_str", "src/mccode_antlr/instr/instance.py:Instance.to_file", "src/mccode_antlr/instr/visitor.py:visitComponent_instance"]}
{"id": "C52", "title": "Printed jumps read back as the same jump", "statement": "The JUMP text printed for a jump reads back as a jump with the same target.", "quantifier": "every jump target name and offset", "why_tests_cant": "Name-dependent printing over all identifiers.", "anchors": ["src/mccode_antlr/instr/jump.py:Jump.to_file", "src/mccode_antlr/instr/visitor.py:visitJumpPrevious"]}
{"id": "C53", "title": "PREVIOUS and named references resolve or raise", "statement": "RELATIVE PREVIOUS(n) refers to the n-th instance before the current one; a reference to a non-existent instance is an error.", "quantifier": "every instrument prefix, n and name", "why_tests_cant": "Error behaviour over all n and names.", "anchors": ["src/mccode_antlr/instr/visitor.py:visitComponent_ref", "src/mccode_antlr/instr/instr.py:Instr.last_component"]}
{"id": "C54", "title": "Including an instrument merges it without loss", "statement": "%include of an instrument appends its non-REMOVABLE components in order, merges its parameters (existing ones win) and its code sections, and raises on component name collisions.", "quantifier": "every pair of instruments", "why_tests_cant": "Universal over pairs.", "anchors": ["src/mccode_antlr/instr/visitor.py:visitInstrument_trace_include"]}
{"id": "C55", "title": "Component parameter names stay unique across kinds", "statement": "A component definition never has two parameters of the same name among its define and setting parameters; a repeated definition raises.", "quantifier": "every history of additions", "why_tests_cant": "Invariant over histories.", "anchors": ["src/mccode_antlr/comp/comp.py:Comp.add_define", "src/mccode_antlr/comp/comp.py:Comp.add_setting", "src/mccode_antlr/comp/comp.py:Comp.add_output"]}
{"id": "C56", "title": "Sequential C variable evaluation uses current values", "statement": "evaluate_c_defined_variables evaluates assignments in order, each with the values assigned before it.", "quantifier": "every list of assignments", "why_tests_cant": "Sequential semantics over lists.", "anchors": ["src/mccode_antlr/translators/c_listener.py:evaluate_c_defined_variables"]}
{"id": "C57", "title": "Compilation flags of an instrument survive reading", "statement": "Every DEPENDENCY of the instrument and of its components is present in the flags of the instrument that is read.", "quantifier": "every instrument", "why_tests_cant": "Path-dependent loss.", "anchors": ["src/mccode_antlr/reader/reader.py:Reader.get_instrument", "src/mccode_antlr/loader/loader.py:parse_mccode_instr"]}
{"id": "C58", "title": "Run-time options have one meaning", "statement": "regular_mccode_runtime_dict maps every accepted alias to its canonical option, the canonical name winning over aliases, leaving absent options absent.", "quantifier": "every dictionary of options", "why_tests_cant": "Alias precedence over all combinations.", "anchors": ["src/mccode_antlr/run/runner.py:regular_mccode_runtime_dict", "src/mccode_antlr/run/runner.py:mccode_runtime_dict_to_args_list"]}
{"id": "C59", "title": "A range's text form reads back as the same range", "statement": "For every range whose numbers print without a colon, MRange.from_str(str(r)) has the same start, step and stop as r, and a text with one, two or three fields is read as start, start:stop with step one, or start:step:stop.", "quantifier": "every range and every way of printing numbers that can be read back", "why_tests_cant": "Unbounded set of ranges.", "anchors": ["src/mccode_antlr/run/range.py:MRange.from_str", "src/mccode_antlr/run/range.py:MRange.__str__"]}
{"id": "C60", "title": "Repeated values are bounded by the longest range of a scan", "statement": "parse_scan_parameters gives every single-valued parameter without a repetition count a count equal to the longest range of the scan (one if there is none), changes no other parameter, and keeps all names and their order.", "quantifier": "every dictionary of parameters", "why_tests_cant": "Must hold for every mixture of ranges and single values.", "anchors": ["src/mccode_antlr/run/range.py:parse_scan_parameters"]}
{"id": "C61", "title": "Expressions combine with plain Python numbers", "statement": "For every expression e and every Python number c, each of e + c, e - c, e * c, e / c, c + e, c - e and c * e returns an expression whose value is the sum, difference, product or quotient of the values.", "quantifier": "every expression, number and assignment of values to identifiers", "why_tests_cant": "Unbounded set of expressions; the result depends on the class of the operands and their data types.", "anchors": ["src/mccode_antlr/common/expression.py:Expr.__add__", "src/mccode_antlr/common/expression.py:Expr.__radd__", "src/mccode_antlr/common/expression.py:Value.__add__", "src/mccode_antlr/common/expression.py:BinaryOp.__add__"]}
{"id": "C62", "title": "Floor division is the floor of the quotient", "statement": "For all expressions a and b the value of a // b is the floor of the quotient of their values, wherever that is defined.", "quantifier": "every pair of expressions and every assignment of values", "why_tests_cant": "Unbounded set of expressions and special cases for 0, 1, -1 and equal operands.", "anchors": ["src/mccode_antlr/common/expression.py:Value.__floordiv__", "src/mccode_antlr/common/expression.py:BinaryOp.__floordiv__"]}
{"id": "C63", "title": "Powers have the right value", "statement": "For all expressions a and b the value of a ** b is the value of a raised to the value of b.", "quantifier": "every pair of expressions and every assignment of values", "why_tests_cant": "Unbounded set of expressions and special cases for zero and one.", "anchors": ["src/mccode_antlr/common/expression.py:Value.__pow__", "src/mccode_antlr/common/expression.py:Expr.__pow__"]}
{"id": "C64", "title": "Equality of expressions is an equivalence", "statement": "The == operator on expressions is reflexive, symmetric and transitive.", "quantifier": "all triples of expressions", "why_tests_cant": "Quantifies over all triples of recursive objects and their concrete classes.", "anchors": ["src/mccode_antlr/common/expression.py:Value.__eq__", "src/mccode_antlr/common/expression.py:BinaryOp.__eq__", "src/mccode_antlr/common/expression.py:UnaryOp.__eq__", "src/mccode_antlr/common/expression.py:Expr.__eq__"]}
{"id": "C65", "title": "Equal expressions have equal values", "statement": "Two expressions that compare equal with == have the same value under every assignment of values to the identifiers.", "quantifier": "all pairs of expressions and all assignments", "why_tests_cant": "Unbounded set of pairs and assignments.", "anchors": ["src/mccode_antlr/common/expression.py:Value.__eq__", "src/mccode_antlr/common/expression.py:BinaryOp.__eq__", "src/mccode_antlr/common/expression.py:UnaryOp.__eq__"]}
{"id": "C66", "title": "A rotation part turns by the stated angle in the stated unit", "statement": "The matrix of RotationX, RotationY or RotationZ built from an angle is the rotation about that axis by that angle, for degrees and for radian, for literal angles and for angles only known at run time.", "quantifier": "every axis, every real angle, both units, literal and run-time angles", "why_tests_cant": "A statement about all real angles; special values (0, 90, 180) have their own branches.", "anchors": ["src/mccode_antlr/instr/orientation.py:RotationPart._cos_sin_one_zero", "src/mccode_antlr/instr/orientation.py:cos_value", "src/mccode_antlr/instr/orientation.py:sin_value", "src/mccode_antlr/instr/orientation.py:degree_to_radian"]}
{"id": "C67", "title": "Group information of a split part refers to its own components", "statement": "After split(at), the groups held by each part are those determine_groups finds for the components of that part: names in use there, and numbers of components of that part.", "quantifier": "every instrument with groups and split point", "why_tests_cant": "A relation between two instruments for every grouping and every split point.", "anchors": ["src/mccode_antlr/instr/instr.py:Instr.copy", "src/mccode_antlr/instr/instr.py:Instr.split", "src/mccode_antlr/instr/instr.py:Instr.determine_groups"]}
{"id": "C68", "title": "A section written in a component defined as a copy replaces the copied section", "statement": "In DEFINE COMPONENT new COPY old, a section that is written (TRACE, SHARE, DECLARE, ...) replaces the section of old, a section written as COPY other EXTEND is the section of other followed by the extension, and the sections that are not written are those of old.", "quantifier": "every component definition and every list of written sections", "why_tests_cant": "Quantifies over all combinations of clauses; the visitor appends or replaces depending on the kind of clause.", "anchors": ["src/mccode_antlr/comp/visitor.py:CompVisitor.visitComponentDefineCopy", "src/mccode_antlr/comp/visitor.py:CompVisitor.visitTraceBlock", "src/mccode_antlr/comp/visitor.py:CompVisitor.visitShareBlockCopy"]}
{"id": "C69", "title": "JUMP semantics of the generated trace loop", "statement": "A particle for which the condition of a JUMP holds is next treated by the target component, in exactly the state in which it left the jumping component; of several jumps the last one whose condition holds decides; JUMP t ITERATE n runs the components from t to the jumping one n times in all and then goes on.", "quantifier": "every instrument, every component behaviour, every particle and every number of iterations", "why_tests_cant": "A statement about all executions of generated code, with counters carried by the particle.", "anchors": ["src/mccode_antlr/translators/c_raytrace.py:cogen_raytrace"]}
{"id": "C70", "title": "Data files can be read back", "statement": "Reading the file written for a data set (to_filename, then read_mccode_dat) gives back the same metadata, parameters, variables and data.", "quantifier": "every data set of zero, one or two dimensions", "why_tests_cant": "Round trip over all headers and arrays; fails only for some shapes and texts.", "anchors": ["src/mccode_antlr/loader/datfile.py:DatFileCommon.to_filename", "src/mccode_antlr/loader/datfile.py:DatFileCommon.from_filename", "src/mccode_antlr/loader/datfile.py:read_mccode_dat"]}
{"id": "C72", "title": "A printed TRACE section reads back as the same instances", "statement": "The text Instr.to_file prints for the component instances, read by the instrument visitor, gives instances with the same names, types, parameters, placements, conditions, groups, EXTEND code, jumps and metadata, in the same order.", "quantifier": "every list of component instances", "why_tests_cant": "Universal over instances with any combination of clauses and any number of components referring to each other.", "anchors": ["src/mccode_antlr/instr/instance.py:to_file", "src/mccode_antlr/instr/visitor.py:visitComponent_instance"]}
{"id": "C71", "title": "Keywords of dependency strings are replaced by what they stand for", "statement": "In a dependency string every @NAMEFLAGS@ is replaced by the configured flags of that name, or by -lname if there are none, @MCCODE_LIB@ by the current directory; unknown keywords and the rest of the text are kept.", "quantifier": "every dependency string and configuration", "why_tests_cant": "Universal over texts with any number of keywords in any order and over configured values; fails only where keywords, values and the text between them interact.", "anchors": ["src/mccode_antlr/instr/instr.py:Instr._replace_keywords"]}
{"id": "C73", "title": "Splitting an instrument at an MCPL file keeps both halves", "statement": "Instr.mcpl_split(after, filename) gives two instruments that together have the components of the original in order, sharing only the split point, which is replaced by the component writing the file in the first and by the one reading it in the second; both get the parameter mcpl_filename, every other component keeps its fields and its place, and references work as before.", "quantifier": "every instrument, split point and file name", "why_tests_cant": "Universal over instruments of any length with references in any direction across the split point, and over repeated splits.", "anchors": ["src/mccode_antlr/instr/instr.py:Instr.mcpl_split"]}
{"id": "C74", "title": "make_instance adds the instance asked for", "statement": "Instr.make_instance(name, component, at, rotate, parameters, group, removable) adds one instance at the end with exactly the name, type, placement, parameters, group and removable mark given, or raises and adds nothing.", "quantifier": "every instrument and arguments", "why_tests_cant": "Universal over argument combinations; positional arguments are swapped only for combinations of group and removable.", "anchors": ["src/mccode_antlr/instr/instr.py:Instr.make_instance"]}
{"id": "C75", "title": "Assembler.component adds the component described or nothing", "statement": "Assembler.component(name, type, at, rotate, parameters, ...) adds one component at the end, of the type asked for, placed at the position and with the rotation given, each relative to the reference given (PREVIOUS is the last component, ABSOLUTE or None no reference, no rotation that of the position), with the parameters given; if it raises the instrument is unchanged; after any sequence of calls names differ, references are to earlier components and orientations are those described.", "quantifier": "every sequence of calls, whether they return or raise", "why_tests_cant": "Universal over sequences of calls with references between components and over the kinds of arguments, including failing calls in between.", "anchors": ["src/mccode_antlr/assembler/assembler.py:Assembler.component", "src/mccode_antlr/assembler/assembler.py:Assembler._handle_at_rotate"]}
{"id": "C76", "title": "Adjacent string literals are one text", "statement": "A text written in an instrument or component file as one or more adjacent string literals stands, in the generated program, for the texts of the literals one after the other, as in C.", "quantifier": "every sequence of valid string literals, with any escape sequences and characters", "why_tests_cant": "Universal over escape sequences and the boundaries between literals: only texts that end in an escaped quote, or in an escape sequence the next literal can continue, go wrong.", "anchors": ["src/mccode_antlr/common/visitor.py:visitExpressionString"]}
{"id": "C77", "title": "Component parameters hold the values given", "statement": "When the generated program has run setpos for a component instance, every setting parameter of its type holds the value given to the instance, or else the default of the definition: texts of any kind, numbers, expressions, vectors.", "quantifier": "every component definition, instance and value accepted by set_parameter; any values of the instrument parameters", "why_tests_cant": "Universal over texts (encodings, lengths, escape sequences), lists and expressions and over all combinations of the type of the default and of the value.", "anchors": ["src/mccode_antlr/translators/c_initialise.py:cogen_comp_setpos", "src/mccode_antlr/translators/c_decls.py:component_type_declaration", "src/mccode_antlr/common/visitor.py:visitInitializerlist", "src/mccode_antlr/common/parameters.py:ComponentParameter.compatible_value"]}
{"id": "C78", "title": "Declared component variables hold their initial values", "statement": "When the generated program has run setpos for a component instance, every variable of the DECLARE section of its type that is declared with an initial value holds that value: numbers, pointers, arrays with lists.", "quantifier": "every declaration and initial value C allows", "why_tests_cant": "Universal over the texts of initial values: nesting, commas in calls and at the end, blanks.", "anchors": ["src/mccode_antlr/translators/c_initialise.py:cogen_comp_setpos"]}
{"id": "C79", "title": "The table of instrument parameters has their defaults and units", "statement": "In the generated program the row of every instrument parameter in the input table has, as a C compiler reads it, the default of the parameter (empty if it has none) and its unit (empty if it has none).", "quantifier": "every instrument parameter, with any default and unit", "why_tests_cant": "Universal over texts with quotes, backslashes and line ends, and over parameters with and without default.", "anchors": ["src/mccode_antlr/translators/c_decls.py:declarations_pre_libraries"]}
{"id": "C80", "title": "Members of a particle are read and written by name", "statement": "In the generated program particle_getvar gives the value of the state variable or user variable named, and reports success exactly for names of such variables; particle_getvar_void and _get_particle_var point to the member named; a value written with particle_setvar_void (or particle_setvar_void_array) is what is read afterwards and no other member changes; particle_getuservar_byid gives the user variable with that number.", "quantifier": "every set of user variables (any type, pointers, arrays), both flavours, every particle state, every name and number", "why_tests_cant": "Universal over user variable declarations and types; the generated C needs to be run, and a wrong type is read silently as another number.", "anchors": ["src/mccode_antlr/translators/c_header.py:header_pre_runtime", "src/mccode_antlr/translators/c_particle.py", "src/mccode_antlr/translators/c_macros.py:cogen_getparticlevar_fct"]}
{"id": "C81", "title": "A particle starts and is restored in the right state", "statement": "particle_restore gives a particle exactly the saved position, direction, spin or field, time and weight, clears its marks and leaves all other members alone; a new particle is at the origin along z at time 0 with weight 1; particle_uservar_init gives every user variable its initial value or zero and changes nothing else.", "quantifier": "both flavours, every particle and saved particle, every set of user variables", "why_tests_cant": "Universal over the state and the user variables; a member left out of restore shows only in particular trace histories.", "anchors": ["src/mccode_antlr/translators/c_header.py:header_pre_runtime", "src/mccode_antlr/translators/c_particle.py:restorable_struct_members", "src/mccode_antlr/translators/c_particle.py:setstate_signature_call"]}
{"id": "C82", "title": "Components are found by name at run time", "statement": "In the generated program _getcomp_index gives the index of the component with a name (the one used when it is placed) and -1 for other names; _getvar_parameters gives its parameters; getdistance gives the distance of two components; setpos_getdistance gives it for components before the current one and refuses all other names.", "quantifier": "every list of distinct component names, any names asked for, any positions", "why_tests_cant": "Universal over instruments and names; a wrong index reads other memory silently.", "anchors": ["src/mccode_antlr/translators/c_macros.py:cogen_getcompindex_fct", "src/mccode_antlr/translators/c_macros.py:cogen_getvarpars_fct", "src/mccode_antlr/translators/c_initialise.py:_GETDISTANCE_FCT"]}
{"id": "C83", "title": "A printed instrument parameter is read back", "statement": "The text of an instrument parameter (to_file, to_string) is read (by the instr grammar or InstrumentParameter.parse) as the same parameter exactly if its name is no keyword, its unit is a string literal with its quotes, its default is a constant or absent, a text default is a string literal or NULL, and it is no array. Otherwise it is refused or read as something else: a default made of names is lost, a unit without quotes and an array are refused.", "quantifier": "every parameter of every type, with any unit and default", "why_tests_cant": "Universal over names, units, defaults and escapes in literals; the printed text of any parameter must be parsed again.", "anchors": ["src/mccode_antlr/common/parameters.py:InstrumentParameter.to_file", "src/mccode_antlr/instr/visitor.py:visitInstrumentParameterString", "src/grammar/McInstr.g4:instrument_parameter"]}
{"id": "C84", "title": "A printed instrument is read back as the same instrument", "statement": "Reading the text that Instr.to_file writes gives an instrument with the same name, parameters, metadata, flags, DECLARE, USERVARS, INITIALIZE, SAVE and FINALLY code and components.", "quantifier": "every instrument that can be built in memory", "why_tests_cant": "Universal over whole instruments; loss or merging in any section is visible only for particular contents.", "anchors": ["src/mccode_antlr/instr/instr.py:Instr.to_file", "src/mccode_antlr/instr/visitor.py:visitInstrument_definition", "src/grammar/McInstr.g4:instrument_definition", "src/mccode_antlr/common/textwrap.py:TextWrapper.quoted_line"]}
{"id": "C85", "title": "An expression in an instrument has in the generated C the meaning its text has in C", "statement": "For every expression written in an instrument file: if the C text generated for it is read by a C compiler, it has the value that the expression's own text has when read as C. The grammar and C agree on a text exactly if every operand binds strongly enough for its place in C's order of operators; for two operators in a row exactly if both order them alike; so all arithmetic (numbers, names, signs, + - * /, parentheses, calls, array elements) is read as in C, and what is generated for it keeps the value. `a - b % c` and `a << b >> c` silently change meaning.", "quantifier": "all token sequences (any length and nesting), all trees, all environments giving values to names, functions and the remaining operators, all parameter tables", "why_tests_cant": "Needs a comparison of two grammars on infinitely many texts, of which one belongs to the C compiler; a test compares single outputs with a stored text and does not notice that both are read differently by C.", "anchors": ["src/grammar/McCommon.g4:37-67", "src/mccode_antlr/common/visitor.py:12-144", "src/mccode_antlr/common/expression.py:321-381", "src/mccode_antlr/common/expression.py:840-967"]}
{"id": "C86", "title": "A sign belongs to the operand behind it", "statement": "In an expression of an instrument, a sign written after an operator belongs to the operand behind it, as in C: `a * -b` is the product of a and the opposite of b.", "quantifier": "all binary operators, both signs, all names", "why_tests_cant": "The grammar has a rule for signs which is never chosen because the rule for strings also matches nothing; that the wrong tree is silently folded into a plausible C text shows only for some operators, and depends on the order of alternatives.", "anchors": ["src/grammar/McCommon.g4:37-67", "src/mccode_antlr/common/visitor.py:12-16", "src/mccode_antlr/common/visitor.py:142-144", "src/mccode_antlr/common/expression.py:815-830"]}
{"id": "C87", "title": "Whole and floating point numbers keep C's arithmetic in the generated text", "statement": "For arithmetic in an instrument, the generated C text has, with C's distinction between whole and floating point numbers (quotients of whole numbers are cut off), the value that the text in the instrument has in C.", "quantifier": "all token sequences of arithmetic (any length and nesting), all C environments giving whole or floating point numbers to variables, array elements and functions, all parameter tables", "why_tests_cant": "Whether a constant that is folded or dropped changes the C type of a later quotient depends on the whole expression and on types that only the C compiler knows.", "anchors": ["src/mccode_antlr/common/expression.py:840-900", "src/mccode_antlr/common/visitor.py:40-66"]}
{"id": "C88", "title": "An integer literal keeps its value", "statement": "Every integer constant of C written in an expression of an instrument (decimal, octal, hexadecimal, with or without suffix) has in the generated C the value it has in C.", "quantifier": "all texts that are integer constants of C99, of any length", "why_tests_cant": "There are infinitely many literals in four notations; the wrong ones (leading zeros) look plausible in the output and raise nothing.", "anchors": ["src/grammar/c99.g4:4-9", "src/grammar/c99.g4:163-180", "src/mccode_antlr/common/visitor.py:44-48", "src/mccode_antlr/common/expression.py:746-753"]}
{"id": "C89", "title": "No identifier is declared twice in the generated program", "statement": "The C program generated for an instrument declares no structure tag, no member of a structure and no type, variable or function twice, whatever names the user chose for instances, component types, groups, parameters and variables.", "quantifier": "every instrument: all names, numbers of components, SPLITs, GROUPs and iterated JUMPs", "why_tests_cant": "Names are put together from user names; which combinations clash is a statement about all of them.", "anchors": ["src/mccode_antlr/translators/c_header.py:header_pre_runtime", "src/mccode_antlr/translators/c_decls.py:declarations_pre_libraries", "src/mccode_antlr/translators/c_initialise.py:cogen_initialize", "src/mccode_antlr/translators/c_trace.py:cogen_comp_trace_class"]}
{"id": "C90", "title": "What the generated program uses it declares", "statement": "Every function called, every variable and every structure member the translator writes into the generated program is declared in it, including the members its parameter macros stand for.", "quantifier": "every instrument and component definition", "why_tests_cant": "The conditions under which a function is written and under which it is called are different expressions in different files; agreement is a statement about all combinations of sections.", "anchors": ["src/mccode_antlr/translators/c_raytrace.py:cogen_raytrace", "src/mccode_antlr/translators/c_trace.py:cogen_comp_trace_class", "src/mccode_antlr/translators/c_initialise.py:cogen_comp_setpos", "src/mccode_antlr/translators/c_defines.py:cogen_parameter_define"]}
{"id": "C91", "title": "The sections of an instrument run in order, once for each component", "statement": "In the program generated for an instrument whose components have different names and whose component types of one name are the same, INITIALIZE runs the instrument's code, then sets the parameters and the placement of every component in order, then runs the INITIALIZE code of every component in order with the variable of that component, then shows the geometry if asked for; SAVE runs the instrument's code and then that of every component in order; FINALLY does what SAVE does, then runs the instrument's FINALLY code, then that of every component in order; DISPLAY announces every component once, in order, each followed by its own drawing code. No block is run for another component, twice, or not at all.", "quantifier": "all instruments, all component types with any blocks of code, all numbers of instances of a type, with and without showing the geometry, with and without an information file", "why_tests_cant": "The generated program is C that calls functions by composed names; tests compare a few instruments and cannot show that for every instrument each call reaches the function of the right type and that none is missing.", "anchors": ["src/mccode_antlr/translators/c_initialise.py:227-323", "src/mccode_antlr/translators/c_save.py:1-70", "src/mccode_antlr/translators/c_finally.py:1-77", "src/mccode_antlr/translators/c_display.py:1-88"]}
{"id": "C92", "title": "The memory of list parameters is allocated and freed exactly once", "statement": "Over a whole run of the generated program (INITIALIZE, any number of SAVE, FINALLY) the memory allocated for a component parameter that is a list is freed exactly once, and nothing else is freed.", "quantifier": "all instruments, all parameter values given and defaults, all numbers of SAVE in between, all run-time values of pointers given by name", "why_tests_cant": "A double free or the freeing of memory that was not allocated is undefined behaviour of a C program that tests do not run for all combinations of given and default values.", "anchors": ["src/mccode_antlr/translators/c_initialise.py:105-150", "src/mccode_antlr/translators/c_finally.py:36-44", "src/mccode_antlr/instr/instance.py:115-148"]}
{"id": "C93", "title": "NeXus records name the instance and say its parameters", "statement": "With NeXus output (USE_NEXUS) the generated initialisation of every component instance passes, for each setting parameter, texts for its default and its value to mccomp_param_nexus: a text parameter is recorded with the text it holds, any other with its value as written in the instrument; the records of different instances have different names.", "quantifier": "for all defaults, values, instance names and indices, and all values of the variables", "why_tests_cant": "The arguments are C text inside a conditional block that the default build never compiles; whether they are valid and what they say depends on the kinds of default and value and on characters in them.", "anchors": ["src/mccode_antlr/translators/c_initialise.py:152-175"]}
{"id": "C94", "title": "A power in an instrument is a power in the generated program", "statement": "An expression a ^ b of an instrument, which the grammar reads as a power, has in the generated C program the value of the power.", "quantifier": "for all literals and variables as base and exponent, all values of the variables, whole or floating point", "why_tests_cant": "Tests compare the Python objects or their text; the value which the text has in C differs for infinitely many operands and is never computed.", "anchors": ["src/grammar/McCommon.g4:50", "src/mccode_antlr/common/visitor.py:50-52", "src/mccode_antlr/common/expression.py:422-423", "src/mccode_antlr/common/expression.py:960-967"]}
{"id": "C95", "title": "Running an instrument runs that instrument", "statement": "mccode_run_cmd and mccode_run execute the program compiled from the instrument and options they are given, at every call, whatever was compiled or run before in the same place.", "quantifier": "for all states of the file system, all sequences of calls, all instruments, options and output places", "why_tests_cant": "The claim is about histories of calls on a changing file system; tests start from an empty directory.", "anchors": ["src/mccode_antlr/compiler/c.py:175-276", "src/mccode_antlr/run/runner.py:131-147", "src/mccode_antlr/run/runner.py:161-295"]}
{"id": "C96", "title": "The directory, options and parameters of a run are the arguments of the program", "statement": "The program started for a point of a scan gets --dir with the directory chosen, and each option and each name=value setting as one argument; with MPI the requested number of processes is asked for.", "quantifier": "for all directories, options, settings and numbers of processes", "why_tests_cant": "It depends on the characters of arbitrary texts; the command is split on white space after it was joined.", "anchors": ["src/mccode_antlr/run/runner.py:52-55", "src/mccode_antlr/run/runner.py:107", "src/mccode_antlr/run/runner.py:150-158", "src/mccode_antlr/compiler/c.py:279-313"]}
{"id": "C97", "title": "The translator takes files from where the reader takes them", "statement": "A file that the reader of an instrument finds, in a directory named by SEARCH or in a registry that was given, is found by the translator when the C source is made, in the same registry.", "quantifier": "for all registries given, all SEARCH statements and all names of files", "why_tests_cant": "Which registry is used depends on the priorities of all of them and on the way the instrument was read.", "anchors": ["src/mccode_antlr/loader/loader.py:17-27", "src/mccode_antlr/reader/reader.py:45-63", "src/mccode_antlr/reader/reader.py:174", "src/mccode_antlr/translators/c.py:235-237", "src/mccode_antlr/translators/target.py:56-69"]}
{"id": "C98", "title": "A component read is the one its file defines, whatever was read before", "statement": "Reader.get_component returns what the file of the component defines, where every COPY stands for the definition of the other component. This does not depend on which components were read before, successfully or not. Each file is parsed once. With definitions whose parts raise nothing it returns unless the files COPY each other in a circle, in which case it always raises.", "quantifier": "for all files, all sequences of calls and all limits of nested calls", "why_tests_cant": "The order in which components of an instrument are read is arbitrary, and files may refer to each other in any way.", "anchors": ["src/mccode_antlr/reader/reader.py:113-141", "src/mccode_antlr/comp/visitor.py:16-36", "src/mccode_antlr/comp/visitor.py:48-58"]}
{"id": "C99", "title": "Each metadata of an instance is in the table of the program under its name", "statement": "The generated program lists, for each component instance and each name under which it has metadata (its own, else that of the instance it copies, else that of its type), one row with the name of the instance, the name of the metadata and the value; a source and a name select one value.", "quantifier": "for all instances, types, copies and metadata", "why_tests_cant": "Which rows clash depends on all names in an instrument and on chains of copies of any length.", "anchors": ["src/mccode_antlr/translators/c_decls.py:80-89", "src/mccode_antlr/instr/instr.py:213-217", "src/mccode_antlr/instr/instance.py:88-97", "src/mccode_antlr/instr/instance.py:220-225", "src/mccode_antlr/comp/visitor.py:228-233", "src/mccode_antlr/instr/visitor.py:145-150"]}
{"id": "C100", "title": "Instances written without a name get names that do not clash", "statement": "COMPONENT COPY, COMPONENT MYSELF and COMPONENT COPY(name) give the instance a name no other instance of the instrument has, also with included instruments; the instrument is refused only if the user wrote one name twice.", "quantifier": "for all lists of instances, written names, and inclusions", "why_tests_cant": "A clash depends on the number of instances before and on how numbers are written in decimal.", "anchors": ["src/mccode_antlr/instr/visitor.py:109-166", "src/mccode_antlr/instr/instr.py:119-122", "src/grammar/McInstr.g4:69-73"]}
{"id": "C101", "title": "ensure_user_var declares a user variable exactly once", "statement": "After Assembler.ensure_user_var(text) each variable the text declares is declared exactly once in the USERVARS of the instrument, with the type asked for, what was declared before still is, and asking again changes nothing; a text without declaration is refused.", "quantifier": "for all USERVARS blocks, texts and parsers of declarations", "why_tests_cant": "The outcome depends on which of the variables of the text occur in any of the blocks added before.", "anchors": ["src/mccode_antlr/assembler/assembler.py:132-153", "src/mccode_antlr/instr/instr.py:180-181", "src/mccode_antlr/common/block.py:49-53"]}
{"id": "C102", "title": "Assembler.parameters adds the parameters described or none", "statement": "Assembler.parameters(*pars, **pairs) adds one instrument parameter for each argument, in order, with the name, value and unit described (a parameter, a dictionary with value and unit, a pair with unit, a plain value), or raises and adds none; names stay unique.", "quantifier": "for all instruments and arguments", "why_tests_cant": "Arguments are any Python values in any number; what is left after an exception depends on which argument fails.", "anchors": ["src/mccode_antlr/assembler/assembler.py:107-124", "src/mccode_antlr/assembler/assembler.py:174-180", "src/mccode_antlr/common/expression.py:771-779", "src/mccode_antlr/instr/instr.py:124-128"]}
{"id": "C103", "title": "The HTML view of an instrument shows its text", "statement": "What a browser shows of the HTML made by HTMLWrapper for values of parameters, conditions, sections of C code and metadata is the text of the instrument, whatever characters it has.", "quantifier": "for all texts", "why_tests_cant": "Texts are of any length and may contain anything that HTML gives a meaning to.", "anchors": ["src/mccode_antlr/common/textwrap.py:222-326", "src/mccode_antlr/instr/instr.py:88-117", "src/mccode_antlr/instr/instance.py:40-71", "src/mccode_antlr/common/metadata.py:42-43"]}
{"id": "C104", "title": "Variables declared in C sections become members with the declaration as written", "statement": "Each variable declared in a DECLARE or USERVARS section is found, in order, under its own name, and the member generated for it has the type, the stars, the name and the array sizes it was declared with.", "quantifier": "for all specifiers, names, pointers, numbers of dimensions and size texts", "why_tests_cant": "Names and sizes are arbitrary texts and the visitor cuts them out of the source text by replacing substrings, so correctness depends on how name and size overlap.", "anchors": ["src/mccode_antlr/translators/c_listener.py:212-363", "src/mccode_antlr/translators/c_listener.py:171-188", "src/grammar/C.g4:158-185"]}
{"id": "C105", "title": "A remote registry knows the same files every time", "statement": "The files (and hashes) a GitHubRegistry knows when it is constructed again, from the list kept in a file, are those it knew the first time, and a list given to the constructor is the one used.", "quantifier": "for all answers of the network, all dictionaries given and all later calls", "why_tests_cant": "The list passes through a text format; which file names and hashes survive it is a statement about all texts.", "anchors": ["src/mccode_antlr/reader/registry.py:219-263"]}
{"id": "C106", "title": "A comparison of expressions is true only if it holds", "statement": "If e < f, e > f, e <= f or e >= f is true for two expressions (or an expression and a number), the relation holds between their values for all values of the identifiers; for numbers it is true exactly then.", "quantifier": "for all expressions and all values of identifiers", "why_tests_cant": "It is a statement about all values of the identifiers, and the methods involved depend on the kind of both operands.", "anchors": ["src/mccode_antlr/common/expression.py:936-958", "src/mccode_antlr/common/expression.py:1241-1279", "src/mccode_antlr/common/expression.py:609-611"]}
{"id": "C107", "title": "Each library that is needed is written once", "statement": "The libraries collected from a block of C are those it %includes and those reached from them through headers. The generated program holds the header and the source of every library that is included or that such a source needs, and each once, headers before sources.", "quantifier": "for all files and all include graphs", "why_tests_cant": "Files may include each other in any way, to any depth.", "anchors": ["src/mccode_antlr/translators/c.py:89-140", "src/mccode_antlr/translators/c.py:326-362"]}
{"id": "C108", "title": "The axis and angle of a rotation are those of the rotation", "statement": "For a part that rotates, rotation_axis_angle returns an axis and an angle such that turning points around the axis by the angle is the rotation of the part; specialization returns a part that does the same.", "quantifier": "for all rotations, and all eigenvectors the linear algebra library may return", "why_tests_cant": "It is about all rotation matrices, and the direction of the eigenvector depends on the library that computes it.", "anchors": ["src/mccode_antlr/instr/orientation.py:447-453", "src/mccode_antlr/instr/orientation.py:459-490", "src/mccode_antlr/instr/orientation.py:539-551"]}
{"id": "C109", "title": "The version of the remote files is a tag of their repository", "statement": "The versions known are the tags of the repository in the order git lists them; 'latest' is the first of them, another version is used if it is a tag and refused otherwise.", "quantifier": "for all answers of git", "why_tests_cant": "Tags are chosen by others, and tests see the answer of one day.", "anchors": ["src/mccode_antlr/reader/registry.py:462-484"]}
{"id": "C110", "title": "Removing a cache removes that cache", "statement": "mccode-antlr cache remove NAME VERSION removes the files kept for that version of the named registry, all of them and no others, and only with consent.", "quantifier": "for all names, versions and contents of the file system", "why_tests_cant": "It is about all files, and no test would remove files outside of a directory of its own.", "anchors": ["src/mccode_antlr/cli/management.py:95-112", "src/mccode_antlr/reader/registry.py:233-235", "src/mccode_antlr/reader/registry.py:258-265"]}
{"id": "C111", "title": "Orientations can be combined, added, subtracted and inverted", "statement": "The operations combine() gives have the position and the rotation of the orientation. a + b is b placed relative to a, a - b is a as seen from b (placed relative to b it is a), and the inverse is the origin as seen from the orientation.", "quantifier": "for all orientations made by placing components, all run-time values", "why_tests_cant": "Positions and angles are real numbers and expressions; the only test has one rotation about y and checks the position of combine().", "anchors": ["src/mccode_antlr/instr/orientation.py:745-763", "src/mccode_antlr/instr/orientation.py:929-958"]}
{"id": "C112", "title": "A syntax error is shown with its line", "statement": "For a syntax error the line it is in is logged directly above the mark for its column, with up to four lines before it and the two lines after it.", "quantifier": "for all sources, lines, columns and messages", "why_tests_cant": "It depends on where in the source the error is and how long the source is.", "anchors": ["src/mccode_antlr/reader/reader.py:19-34", "src/mccode_antlr/translators/c_listener.py:28-43"]}
{"id": "C113", "title": "The run-time header is configured with the version of the library", "statement": "When the header of the run-time library is embedded, every @MCCODE_KEY@ in it is replaced and nothing else is changed, and the keys for version, version number, text and date get the values of the registry the header is in.", "quantifier": "for all headers, registries, versions and configurations", "why_tests_cant": "It depends on which registries there are, what they are called and what is configured; tests need the network for the default ones.", "anchors": ["src/mccode_antlr/translators/target.py:74-113", "src/mccode_antlr/config/__init__.py:49-70", "src/mccode_antlr/translators/c.py:302"]}
{"id": "C114", "title": "Reading only the parameters gives the parameters of the instrument", "statement": "parse_mccode_instr_parameters of the text of an instrument that can be read returns the parameters of that instrument, in order and with their values.", "quantifier": "for all instruments and included files", "why_tests_cant": "It depends on what is included, to any depth, and on the expressions in TRACE, which the parameter visitor walks too.", "anchors": ["src/mccode_antlr/loader/loader.py:9-14", "src/mccode_antlr/instr/visitor.py:384-436", "src/mccode_antlr/instr/visitor.py:80-105"]}
{"id": "C115", "title": "A text given for an expression is read as a whole", "statement": "Expr.parse, which reads the texts given for parameter values, WHEN and SPLIT in Python, returns an expression made of the whole text or raises.", "quantifier": "for all texts", "why_tests_cant": "It is about every text that begins with an expression and everything that may follow.", "anchors": ["src/mccode_antlr/common/expression.py:1043-1049", "src/mccode_antlr/grammar/mccode_parse.py:9-31", "src/grammar/McCommon.g4:37-67", "src/mccode_antlr/instr/instance.py:139", "src/mccode_antlr/instr/instance.py:184", "src/mccode_antlr/instr/instance.py:191"]}
{"id": "C116", "title": "A run returns the data files it wrote", "statement": "mccode_run_compiled runs the program and returns each data file that the program wrote below its directory, under the name of the file, and nothing else; if the program does not run, or fails, nothing is returned.", "quantifier": "for all directories and files in them, all files written, all orders in which files are listed", "why_tests_cant": "Tests run in a fresh directory with monitors of distinct names; what is returned depends on every other data file below the directory.", "anchors": ["src/mccode_antlr/run/runner.py:150-158", "src/mccode_antlr/compiler/c.py:304-324"]}
{"id": "C117", "title": "The program a translator gives is whole", "statement": "instrument_source, TargetVisitor.save and TargetVisitor.contents give the text printed by all parts of the translation, in order, of the instrument as it is, or raise; a save that raises writes no file.", "quantifier": "for all instruments, all parts that may raise at any point, and all sequences of translate, save, contents and changes of the instrument", "why_tests_cant": "It is about every sequence of calls and every point at which a part of the translation may fail.", "anchors": ["src/mccode_antlr/translators/target.py:140-199", "src/mccode_antlr/compiler/c.py:85-91"]}
{"id": "C118", "title": "The entries and bins of a data file are those it says", "statement": "The entry d[name] of a data file is the row of the variable, the value of the parameter or the metadata of that name, and dim_metadata gives, for each dimension of the data, bins that are adjacent, equally wide, as many as there are data, and end at the limits the file states.", "quantifier": "for all data files, all limits and all numbers of bins", "why_tests_cant": "It is about all names that instruments may use for parameters and all limits and sizes.", "anchors": ["src/mccode_antlr/loader/datfile.py:58-72", "src/mccode_antlr/loader/datfile.py:86-96", "src/mccode_antlr/loader/datfile.py:151-153", "src/mccode_antlr/loader/datfile.py:197-200"]}
{"id": "C119", "title": "A list given for an array parameter holds the values written", "statement": "If a component instance is given x = {e1, ..., en} in the TRACE section, and the instrument is accepted, then element i of the array set by the generated C is the value of ei.", "quantifier": "for all lists of expressions and all parameters of the instrument", "why_tests_cant": "It is about all expressions that may be written as elements; tests use lists of numbers.", "anchors": ["src/mccode_antlr/common/visitor.py:85-88", "src/mccode_antlr/instr/visitor.py:202-207", "src/mccode_antlr/translators/c_initialise.py:131-137"]}
{"id": "C120", "title": "A name of an instrument parameter means that parameter in every expression", "statement": "In the generated C, a name in an expression of an instance is written with the prefix of the instrument parameters exactly if it is the name of a parameter of the instrument, so that the expression has the value it has with the values of the parameters.", "quantifier": "for all instruments, however their instances were made, and all expressions", "why_tests_cant": "It is about all shapes of expressions and all ways to make an instance; tests look at some instruments that were read from text.", "anchors": ["src/mccode_antlr/common/expression.py:706-722", "src/mccode_antlr/common/expression.py:1014-1016", "src/mccode_antlr/instr/instance.py:155-160", "src/mccode_antlr/instr/instr.py:489-502", "src/mccode_antlr/translators/target.py:31", "src/mccode_antlr/assembler/assembler.py:41"]}
{"id": "C121", "title": "The command line translators use the directories given, in order", "statement": "mcstas-antlr and mcxtrace-antlr take each file from the first of the directories given with -I that has it, else from the working directory, else from the library; and without -o they write the program beside the instrument, a different file for each instrument.", "quantifier": "for all arguments, all contents of the directories and of the library, and all names", "why_tests_cant": "It is about all orders of directories and all contents; the order comes from a stable sort by priority.", "anchors": ["src/mccode_antlr/cli/commands.py:43-93", "src/mccode_antlr/reader/reader.py:45-49", "src/mccode_antlr/reader/registry.py:280-284", "src/mccode_antlr/reader/registry.py:396-398"]}
{"id": "C122", "title": "The configuration commands do what they say", "statement": "After mccode-antlr config set K V, config get K gives V; after config unset K it gives nothing; and config save changes no value that is looked up later.", "quantifier": "for all configurations, keys, values and sequences of commands", "why_tests_cant": "It is about all sequences of processes and all places a value may come from; there are no tests of it.", "anchors": ["src/mccode_antlr/cli/management.py:10-64", "src/mccode_antlr/cli/management.py:152-157", "src/mccode_antlr/config/__init__.py:8-11", "src/mccode_antlr/config/__init__.py:74-82"]}
{"id": "C123", "title": "The library of the program is among the registries an instrument is read with", "statement": "parse_mcstas_instr, parse_mcxtrace_instr and the functions that load files find every component that the library of the program has, whatever registries are given; a registry that is given comes first unless its priority is lower; the library is not added twice; and the instrument keeps the registries that were used.", "quantifier": "for all lists of registries given, with any priorities, names and files, and all names of components", "why_tests_cant": "It is about all lists of registries and depends on what equality of registries compares and on the stability of a sort.", "anchors": ["src/mccode_antlr/loader/loader.py:17-58", "src/mccode_antlr/reader/reader.py:41-49", "src/mccode_antlr/reader/registry.py:186-197", "src/mccode_antlr/reader/registry.py:345-352"]}
{"id": "C124", "title": "An instrument is compiled exactly if the configured compiler works", "statement": "compile_instrument compiles if the compiler that the configuration names for the target can be found and compiles a trial instrument, and otherwise raises RuntimeError without trying; a function decorated with compiled, gpu_only or mpi_only is run under the same condition.", "quantifier": "for all sequences of checks, all configurations, environments and sets of compilers at each of them, and all targets", "why_tests_cant": "It is about all orders of checks and changes of the configuration between them; the answers are kept in two caches.", "anchors": ["src/mccode_antlr/compiler/check.py:4-103", "src/mccode_antlr/compiler/c.py:233-282"]}
{"id": "C125", "title": "A name is in an expression exactly if the expression uses it", "statement": "For an expression e and the name of an instrument parameter, `name in e`, by which unused parameters are found and removed, is true exactly if e uses the parameter; where it is false the value of e does not depend on the parameter.", "quantifier": "for all expressions built of the operations, all names and all values of the parameters", "why_tests_cant": "It is about all trees; tests look at single operations.", "anchors": ["src/mccode_antlr/common/expression.py:373-375", "src/mccode_antlr/common/expression.py:527-529", "src/mccode_antlr/common/expression.py:629-631", "src/mccode_antlr/common/expression.py:1004-1012", "src/mccode_antlr/common/expression.py:1040-1041", "src/mccode_antlr/instr/instance.py:233-246"]}
{"id": "C126", "title": "The specification of a registry makes the registry documented for its form", "statement": "registry_from_specification makes a LocalRegistry of a directory (with or without a name), a ModuleRemoteRegistry of a name, a URL and an existing file, and a GitHubRegistry of a name, a URL, a version and the name of a file, each with exactly these texts, quoted or not; every other text gives None.", "quantifier": "for all names, directories, URLs, versions and file names without blanks, quoted or not, and all states of the file system", "why_tests_cant": "It depends on the texts and on what files exist; tests use a few texts in one directory.", "anchors": ["src/mccode_antlr/reader/registry.py:18-36", "src/mccode_antlr/reader/registry.py:414-459"]}
