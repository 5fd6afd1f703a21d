{
"C01": ["proved", "ids through raw registration, look-ups and templates, until the registry is destroyed"],
"C02": ["proved", "any history"],
"C03": ["proved", "type-level fixed point and ids; assumes type names tell types apart; cv void (not a scalar or class) is the exception C03_cv_void_false"],
"C04": ["partial", "false for handles obtained before shutdown (C04_old_handle_false; exactly those with a valid id once the registry is gone, C04_old_handle_exact) and for converters registered again during shutdown (C04_register_during_shutdown_false); proved for all other calls"],
"C05": ["proved", "below 16 pointer levels, as the property says; C05_limit shows the limit is real"],
"C06": ["proved", "Every predicate by its depth of pointers and innermost type (C06_kinds); C06_surprises records what the names do not say (arrays of class pointers)."],
"C07": ["partial", "Below 16 levels exactly C++ qualification conversion, except that rvalues are accepted for const volatile lvalue references (C07_exact_partial, C07_volatile_lref_false). From 16 levels on outer levels are ignored (C10_deep_answer, C08_deep_false)."],
"C08": ["partial", "What compatible answers is given exactly for any two types, arrays included, up to 16 levels (C08_answer), beyond in C10. Nothing const becomes writable outside arrays (C08_outside_arrays, C08_array_to_pointer). Partial: false inside arrays of pointers (C08_false) and when 17 levels are compared (C08_deep_false)."],
"C09": ["proved", "reflexive for every type; transitive for one decay class at every depth (C09_transitive below 16 levels, C09_transitive_deep up to 65535 with the one exception, C09_deep_exception); counterexamples through a copy and between unrelated types"],
"C10": ["partial", "False at 16 pointer levels (C10_false: bitset::test throws out of noexcept). Exactly when it terminates: C10_terminates_iff; what it answers at 16 and more levels: C10_deep_answer; below 16 always an answer: C10_partial."],
"C11": ["partial", "Presence, return values and independence of pairs proved (C11_others_unaffected: answers for other pairs after any program); the function that runs is the first one of that functor type (C12_false), proved right when each functor type comes with one function. C11_conversion_exact: which function runs, and when it is the one in force, exactly."],
"C12": ["partial", "false of the code (C12_false): the function-local static keeps the old functor; proved for a functor type not used before for the pair Exactly: the new function runs iff it is the one of the first call there ever was for the pair with that functor type (C12_exact)."],
"C13": ["partial", "false for converters with the flag parameter (C13_false); proved for the others Exactly when the result is right, and what a failing flagged converter does: C13_exact, C13_flagged."],
"C14": ["proved", "refinement to an insertion-ordered map, any history"],
"C15": ["proved", "Any history of additions to all categories, null additions refused; each category shows exactly what was accepted for it (C15_categories_independent)."],
"C16": ["proved", "attributes/elements and members; stated over the list the container holds"],
"C17": ["proved", "all six create functions, any reachable world, non-empty names (the empty-name failure is C17_empty_name_fails)"],
"C18": ["proved", "interleavings of any number of threads' get-or-create calls on one container, step by step; classes see C19; C18_alone: a call nobody interrupts does what the sequential function does, from any reachable state"],
"C19": ["partial", "single-threaded statement proved in full; the concurrent clause is false of the code (C19_concurrent_false); with threads nobody is refused without reason (C19_refused) C19_concurrent_exact: once the type can be found, another class for it appears exactly if a thread was past its checks and its name is free."],
"C20": ["partial", "false of the code when the name is taken by another type (C20_false); proved for new names Exactly: right iff the name was unused or used for that type (C20_exact)."],
"C21": ["proved", "any history of definitions and queries; names identify the item together with the categories along the path (C21_path_identifies), names alone do not (C21_collision_across_categories)"],
"C22": ["proved", "any list of signatures and any query"],
"C23": ["proved", "type names non-empty, bracket-balanced, no top-level comma; the hypotheses are needed (C23_hypotheses_needed)"],
"C24": ["partial", "false of the code for names with a parenthesis such as operator() (C24_false); proved for all other names Exactly: found iff there is no parenthesis in the name and no earlier method of that name (C24_exact)."],
"C25": ["proved", "histories whose declared bases are proper C++ bases (acyclic); C25_self_base_diverges shows the precondition is needed"],
"C26": ["proved", "Any calls at all, also with a class declared as its own base or classes as bases of one another (C26_any_mirror, C26_any_lists, C26_any_declaration, C26_any_other_calls); the others state the same for worlds with lazy definitions."],
"C27": ["proved", "Hierarchies a C++ program can have (no circles); the cast in declared circles is C86_cast."],
"C28": ["proved", ""],
"C29": ["proved", "Hierarchies a C++ program can have (no circles); look-ups in declared circles are C86_method, C86_property."],
"C30": ["partial", "false of the code (C30_false): a static method or property a base has cannot be defined in the derived class; proved when no ancestor has it, and for member functions, whose signature names the class Exactly when the class gets its own: C30_exact, C30_exact_property."],
"C31": ["proved", "Any calls at all, also with circles: C31_any, which also says exactly when the declaration is refused; C31_refused_unchanged states the same for worlds with lazy definitions."],
"C32": ["partial", "Proved for callbacks that only define and query: runs at the first query, not before, re-entrant queries do not rerun it, and answers equal the eager run. False in two corners, with witnesses: setAttribute does not trigger the callback (so it is later overwritten), and a callback installing another lazy definition on its own container throws. C32_plain_query, C32_plain_op: when nothing is pending every query and definition is that of the model without lazy definitions."],
"C33": ["partial", "At most one invocation, never after release, queries that do not overlap the running callback see everything, queries made in turn run it exactly once and never wait: proved for every interleaving and number of definitions. The rest is false of the code: a query overlapping the callback sees part of the definitions, a late thread calls through the reset pointer, and the pointer accesses are a data race (witnesses). What an overlapping query can see is any number of definitions from none to all (C33_views); the null call happens only after the callback ended (C33_null_late)."],
"C34": ["proved", "For every callback and throw point."],
"C35": ["proved", "For every history of installs, definitions and queries."],
"C36": ["partial", "False as stated (witnesses), but settled for every program: history in order (no double free/destroy), one owner per block; undefined behaviour happens exactly when a variant with an in-place non-trivial object is swapped with itself or an array of non-trivial objects is stored (C36_undefined_iff); the blocks in use are exactly those kept by variants plus those allocated by commands that threw (C36_leak_iff). Uninitialised storage is read only by swaps, moves and assignments of a variant whose object lies outside its buffer (C36_reads_only), by every move construction from one (C36_reads_move), by exactly the swaps C36_reads_swap names, and never if all objects fit the buffer (C36_reads_partial)."],
"C37": ["partial", "False as stated: moved-from objects in the buffer are never destroyed (witnesses). Settled for every program: constructions = destructions + objects in variants + moves out of a buffer (C37_balance), so all objects are destroyed iff no such move happened (C37_destroyed_iff); destroyed at most once; heap objects always owned."],
"C38": ["partial", "Full refinement of a machine without memory, for every program and all types, exceptions, termination, arrays and self-swap included (C38_exact). With constructors that preserve values each successful command has the intended effect. The claim itself is false for self-swap of in-place objects (witness)."],
"C39": ["partial", "For every program: all variants and objects unchanged after a throw, at most one block lost; which programs lose blocks is settled by C36_leak_iff. The full claim is false (block lost, termination on bad_alloc; witnesses)."],
"C40": ["partial", "Every outcome of == on two variants of any types is given (C40_exact: equal, unequal, exception, termination, undefined behaviour; C40_ub_iff, C40_terminate_iff; C40_deep for types of 16 pointers or more); reflexive, symmetric (same type) and transitive (any types). Symmetry is false for int const*/int* and arrays of different length, comparing a pointer with an array is undefined behaviour, arrays whose elements' == throws or is missing end the program, and so does comparing types of 16 pointers or more whose const disagrees (C40_deep_terminate_false): witnesses given."],
"C41": ["partial", "Equal variants have equal hashes when equal objects of the type have the same bytes and the sizes agree; false in general (0.0 and -0.0, strings, arrays of different length): witnesses given for every injective hash. With a hash without collisions, hashes agree exactly when the bytes do (C41_exact)."],
"C42": ["partial", "Every overload of ref/cref/rref, data and is, on any sound variant, against any class graph: each outcome (value, bad_variant_cast, undefined, terminate) and exactly when it is the outcome (C42_reference_exact, C42_is_exact). Partial because the property is false in two cases: a null pointer to a class with classInfo() is dereferenced (C42_null_object_false), 16 or more pointer levels terminate the process (C10_terminates_iff)."],
"C43": ["partial", "to<T> is characterised as a function of same type / base class / converter in this order, with every other outcome and exactly when (C43_to_exact, C43_canConvert_exact); canConvert false implies bad_variant_convert; tryConvert. Partial because canConvert may be true though to throws (C43_canConvert_promises_nothing) and because of the two cases of C42. to<T> also throws runtime_error for non-copyable types."],
"C44": ["partial", "References handed out keep const at every level outside arrays, for any variant and target of fewer than 16 pointer levels (C44_outside_arrays_partial), at every level for types without pointers inside arrays, and on the 16 innermost levels for deeper types (C44_deep_partial). False inside arrays of pointers (C44_false, C44_own_array_false) and on the outer levels of types with 16 pointers or more (C44_deep_false)."],
"C45": ["partial", "class searched, method/property found (itself or inherited) and runtime_error otherwise, for invoke, get_property and set_property, over every reachable registry. Partial: a null pointer to a class with classInfo() is undefined behaviour in the code, and nothing else is (C45_class_exact, C45_null)."],
"C46": ["partial", "every outcome of argument::value characterised for plain arguments and for variants as arguments, including exactly when it is undefined (a null pointer to a class with classInfo() asked for as a pointer to another class) or terminates (C46_outcome_exact, C46_variant_exact). Partial: those two outcomes are not what the property promises; parameters that are references to arrays do not compile. C46_reference_wrapper_false: std::ref(x) as an argument counts as an rvalue of x."],
"C47": ["partial", "false with gaps: C47_false, and for member functions of ten parameters: C47_ten_parameters_false. True (both directions, with the wrap-around of size_t) when no argument follows a missing one; C47_leading says what is counted in general. C47_exact: judged right for all parameter counts exactly without gaps."],
"C48": ["partial", "false with a user-registered pointer converter: C48_converter_false; exactly then for pointers to const (C48_const_pointer_exact). Otherwise the object found is exactly the one the instance gives access to, as non-const for non-const functions."],
"C49": ["partial", "false for getters returning a reference (C49_getter_false) and objects passed as they are (C49_temporary_false). Every outcome of reading and writing a property is given exactly (C49_get_exact, C49_set_exact). Proved for static objects and members: read-only, misuse, const instances, where set writes, get after set, constness of get. Objects reached through a user-registered pointer converter are excluded in the set-then-get theorems."],
"C50": ["partial", "false: C50_false, C50_silent (every such instance is silently ignored by invoke/get/set of methods and properties). Holds for access by name: C50_named_partial. Exactly which calls, reads and writes are silently ignored: C50_exact, C50_exact_get, C50_exact_set."],
"C51": ["partial", "Proved for every well-nested chain: it does what lexical scoping says (C51_trees, C51_scopes, with callbacks possibly pending), leaves container and stack as before (C51_balanced, C51_stack_empty), scopes may be left open (C51_unclosed); what each builder call defines and where (C51_method ... C51_element). False as stated in one point: _method, _property and _constructor do not become the current item, so an attribute after them goes to the class (C51_attribute_false). Outside fluent chains: re-using a builder object and exceptions (C51_reuse_false, C51_exception_stack_false). C51_reuse: exactly what several statements on one named builder object define (each starts where the first call of the one before led)."],
"C52": ["partial", "Proved: a new class has exactly its special constructors, retrievable by kind (C52_class, C52_kinds, C52_builder); later constructors never change a non-null answer (C52_stable); a constructor with parameters is found by name and types for ever (C52_found), differing ones are different objects (C52_distinct); _class throws exactly if the name is free and the type has a class, and has then changed nothing (C52_throws_iff, C52_refused). Partial: a null answer stays null unless a reserved name or such a constructor is registered (C52_null_partial; exactly: C52_null_exact). False as stated: reserved names, constructors from C&, getConstructor<>() and getConstructor<C const&>(), a second type under the same class name (the four _false theorems)."],
"C53": ["partial", "False of the code (C53_false): the table is indexed by flag value, so most sets read outside it and some print wrong names. Exactly the sets with no known flag but Const and Pointer print right (C53_exact); C53_defined_iff says which sets stay inside the table. C53_types, C53_metatype_false: no set of flags a C++ type has is among them, so streaming a MetaType is undefined whatever was registered; where the flags can be printed the text is id, name and flags (C53_metatype_partial)."],
"C54": ["partial", "all list functions proved except foldr (C54_foldr_false: inherits from the result instead of wrapping it) and index_sequence_for of a list whose only element is a list or tuple (C54_index_sequence_for_false; the answer for every list is C54_index_sequence_for_exact); both proved outside these cases"],
"C55": ["partial", "proved for GCC for every spelling; for Clang false when the spelling contains 'T =' (C55_clang_false), proved otherwise; the two shapes of __PRETTY_FUNCTION__ are assumptions; C55_exact, C55_clang_exact: what is cut out of any text at all, including the wrong names and the read outside of the text"],
"C56": ["partial", "Proved: null, constness, types without class information, reference form; for any class a virtual classInfo() may report, the cast answers with the upcast of that subobject or null (C56_info); non-null exactly when the dynamic class is the target or derives from it (C56_dynamic), independent of the static type (C56_static) and, for unique subobjects, of the declaration order (C56_unique). The statement needs DECLARE_CLASSINFO in the object's own class (C56_macro_false) and that class registered (C56_unregistered_false)."],
"C57": ["partial", "Proved for every history of calls with arbitrary constructor outcomes and allocation failures: what construct makes (C57_construct), destruct (C57_destruct), the heap is exactly what is held plus what throwing calls left (C57_blocks), object accounting (C57_objects), when it is defined (C57_defined). Partial: no leak if nothing throws (C57_no_leak_partial). False as stated: a throwing or missing constructor leaks the block (C57_leak_false), a throwing array element leaks objects (C57_array_leak_false), trivial types stay uninitialised, copies of non-trivial arrays are UB, invalid and void handles. C57_void_false: every function of the handle of void looks into a missing table."],
"C58": ["partial", "Proved in full for callbacks that define only into their own container (C58_method_partial, C58_property_partial). Whatever the callbacks do: what is found is a member of the class or an ancestor; otherwise the class and every ancestor was searched at a moment when its own definition was complete and it had no such member, so nothing that was there before is missed (C58_method_any, C58_property_any). A callback that defines into a base already searched is missed (witness C58_foreign_callback_false)."],
"C59": ["partial", "proved for items, types, constructors and own members; false for inherited members (C59_false_inherited) Inherited members: an answer is never lost, and stays unless a class searched in vain gets a base or such a member (C59_inherited, C59_inherited_property)."],
"C60": ["partial", "Every outcome of eq is given for all types (C60_exact), and exactly which temporaries are destroyed, for all types (C60_temporaries_exact). The property is false of the code where a converter declines after making a value (leaked temporary) and for arrays (pointer into a buffer already gone): witnesses given."],
"C61": ["proved", "All defining calls of the modelled API (C61_define), look-ups (C61_lookup), inheritance and casts (C61_hierarchy). The fuel hypothesis only bounds the interpreter from below; the divergence hypothesis is about the call without lazy definitions."],
"C62": ["partial", "Forcing a container alone runs everything accepted for it, however it ends (C62_self, no assumption). Recursively: whatever the callbacks do, all definitions accepted before the walk for containers of the tree have run by its end, once each and in order, and what is pending then was installed meanwhile (C62_earlier_run); nothing is pending when callbacks install no further ones (C62_all_run_partial); never wedged, exceptions (proved); returns whenever the walk without locks does, for callbacks that define into their own container. False in general: a callback that installs on a visited container leaves it pending, one that defines a sibling deadlocks."],
"C63": ["partial", "What an enumeration that returns did is proved for every user function (C63_enumeration). It need not return: defining into the enumerated list deadlocks (C63_deadlock_false). Every outcome of an enumeration: C63_outcome."],
"C64": ["partial", "The values are right under every interleaving, reading string accesses as atomic, and every thread gets its answer after three own steps per item of the path (C64_answers); nothing is written for names cached before. False: two threads asking for different names write and read the cache of the global namespace at the same time; a race can happen exactly when the names of two threads share an item not cached before (C64_race_iff)."],
"C65": ["partial", "References never dangle and show the value last set; only users of the same name interfere; a set that nobody interrupts sets (C65_set). False: the reference is read without the lock under which set assigns to it; two threads race exactly when one is setting the attribute the other holds a reference to (C65_race_iff). C65_lookup: a look-up and a read give the value last set, or the empty variant."],
"C66": ["partial", "Look-ups and enumeration of what completed calls defined, for every pattern of failures (proved); exactly when a call throws, for each kind of definition (C66_*_throws_iff); failed calls leave no trace unless the failing allocation is the name index. False there (orphan items, duplicates), and objects leak when the vector cannot grow. What one more call does to the lists after any pattern of failures, exactly: C66_attributes_exact, C66_members_exact, C66_create_index."],
"C67": ["proved", "Any interleaving of any number of threads; the guard of each function-local static is modelled as the language defines it."],
"C68": ["partial", "Whenever there are traits they are right, also for objects with an operator() (C68_describes, C68_functor); exactly the noexcept member functions with a ref-qualifier or volatile, and std::function, have none (does not compile). Lambdas count as member functions of their closure class: C68_functor_false."],
"C69": ["partial", "What any block does, moves included (C69_exact); each guard that is not moved runs once, in reverse order. False for moved guards, which run once more for each move (C69_moved, C69_moved_false)."],
"C70": ["partial", "Everything is destroyed exactly once (C70_all_destroyed), owners before what they own (C70_order, with the order among members). False for queries: types made first leaves destroyed classes findable by type (C70_dangling_false); namespace made first makes walks over bases use a null description (C70_walk_false; exactly which: C70_walk_partial, C70_member_partial)."],
"C71": ["proved", "Every interleaving, no bound on threads or classes: answers, no deadlock, end of every schedule, mirror of the lists. Without a declaration meanwhile the class found is the one a single thread finds (C71_undisturbed); with declarations, which of several members is found may be right at no moment (C71_which_false; the statement only says found or not). Reading lock acquisition as in the standard; cyclic hierarchies excluded (they cannot be C++ classes); no pending lazy definition (C33)."],
"C72": ["partial", "Linearizable under every interleaving (C72_linearizable), one winner, no deadlock. False: the function that runs need not be the winner's when two functors of one type compete (C72_own_function_false); otherwise it is (C72_own_function_partial). C72_first_exact: the function used is exactly that of the thread first at the static."],
"C73": ["partial", "Every outcome of a call given exactly, from end to end: C73_argument, C73_arguments, C73_object, C73_static, C73_member, C73_named; what a running call was given: C73_runs_partial; what is returned: C73_result. False for static functions called by name, which get the instance as their first argument (C73_static_by_name_false)."],
"C74": ["partial", "Every method and property object runs what the registration that made it was given (C74_method, C74_property), and keeps doing so (C74_kept, C74_kept_property). A call by name runs a function the program registered for the class or an ancestor under that name or signature, or throws runtime_error exactly when there is none (C74_call, C74_access); asked by signature it has the parameter types asked for (C74_types); own registrations win, by signature and, for the first of that name, by name (C74_by_signature_partial, C74_by_name_partial, C74_own_access_partial). False: a registration is silently dropped when the class has or inherits a method of the same signature (C74_dropped), which includes a static f(B&) next to the member B::f() (C74_false)."],
"C75": ["partial", "Deadlocks are real: functions that read the enumerated list under a writer-preferring lock, or that add across lists, or to the list itself (C75_*_false, C75_own_list). Everything else for all programs; freedom from deadlock for functions that only use lists of greater rank (either lock policy) and for functions that only read (readers first)."],
"C76": ["partial", "Proved for all programs: every constructor object runs the registered constructor (C76_object), registrations with a new signature stay found (C76_kept), all outcomes of constructing (C76_construct), the signatures spelled out (C76_signature), the conversion in effect is the first registered one (C76_conversion), and variants are converted by it (C76_to). False in the code, with witnesses: const is dropped (C76_const_false), objects of derived classes are not converted (C76_derived_false). Unregistering is C11."],
"C77": ["partial", "Which defining calls throw and why (iff), that a refused one changes nothing, that look-ups never throw and that no program lets a foreign exception out are proved for all states; casts, conversions, arguments, calls, properties and calls by name likewise. Missing: conversions and parameters of types that cannot be copied, which fail with a plain runtime_error (C77_to_false)."],
"C78": ["proved", "Storage (VariantMem) and readers (Value) joined over a layout of memory: in every reachable state, exceptions and writes through references included, a variant with a value is sound for the readers and stands for an object of its own with this value (C78_stands), which ref, data, is and to give (C78_value, C78_to, arrays included); references (C78_referred); no sharing (C78_apart); a write through ref changes one variant (C78_write); the registered function runs on the stored object (C78_call, by exact signature, classInfo truthful for complete objects; through a stored pointer: C78_pointer, C78_call_pointer); an environment showing the memory exists for every reachable state (C78_shown)."],
"C79": ["partial", "All traits are proved for every type (only has_move_constructor and is_template_type, unused by the library, are not modelled). That MetaType::isClassPtr and the flags agree with them is proved apart from pointers to arrays, arrays and pointers, where it is false: witnesses given. Exactly where they disagree: C79_class_pointer_exact, C79_copyable_exact, C79_comparable_exact."],
"C80": ["partial", "False of the code (long double in a variant at an address that is 8 modulo 16). Exact: safe for all programs and placements iff the alignment divides 8 (kept in place) or 16 (heap); for legal alignments in-place types go wrong iff size and alignment are 16, heap types iff over-aligned."],
"C81": ["partial", "False: a converter that constructs and declines, a small non-trivial value in m_dummy, and a throwing move into m_dummy each lose an object or a block (_false theorems). C81_outcome: how every call ends, never with undefined behaviour, the function sees the converted values alive. C81_exact: exactly which objects and blocks are lost, everything older unchanged. C81_no_leak_partial: nothing is lost otherwise, whatever throws. C81_reached, C81_refused: the same for calls through the reflection interface, in terms of what the parameters are bound to (invoke of C44-C46): a call that reaches the function loses exactly the small converted values bound to references, one that is refused those before the failing argument and what a declining converter constructed. C81_member_reached, C81_member_refused, C81_member_nothing: the same for member functions, whose instance may be converted too. C81_result, C81_result_end, C81_result_reached, C81_member_result_reached (and _refused, _nothing): calls that return a value and constructors: the result owns the value returned, nothing else remains but what is lost without a result; and the block of a large value whose move throws (C81_result_block_false). Any allocation may fail (in C81_reached and C81_refused none does): then nothing more is lost, but the program is terminated if the move constructor is noexcept. What the user's function does with its parameters beyond reading them is not modelled."],
"C82": ["partial", "False, exactly: a reference to a parameter that was converted or passed by value is to an object that is gone when the call has returned (C82_own_object_false, for every such call; which those are: C82_which, C82_order); objects that existed before the call are untouched, so references to parameters bound directly stay good (C82_direct_partial). The call is otherwise the same (C82_same_call)."],
"C83": ["partial", "False as stated: a registerConverter that throws leaves its static constructed, and a later call that returns true runs its function (C83_converter_false); hasConverter is noexcept and ends the program (C83_has_false), as does a destructor at exit (C83_exit_false); a failed metaTypeId may leave the decayed type registered (C83_decay_false); addBaseClass may leave the base listed but not the derived class (C83_base_false; when it throws: C83_base_exact). Proved for every program and every choice of failing allocations: no undefined behaviour, exact converter answers (C83_answers_partial), ids stable and distinct (C83_ids), retry (C83_retry, C83_base_retry), known types need no memory (C83_known), lost objects bounded (C83_lost) and freed at exit (C83_freed, C83_exit_freed), shutdown (C83_shutdown)."],
"C84": ["partial", "Every interleaving, no bound on threads or classes: an address is a composition of declared casters along a way up, null only if the target was no base at the call (C84_answers); without a declaration meanwhile the answer is that of a single thread (C84_undisturbed); no deadlock, end of every schedule, lists undisturbed. False: with declarations meanwhile the address may be one that no single-threaded call would give at any moment (C84_moment_false). Cyclic hierarchies excluded (they cannot be C++ classes); no pending lazy definition (C33); the null pointer for 'not found' is told apart from a caster's null result."],
"C85": ["partial", "False in the last sentence: C85_missed_false (a callback run by a look-up may add a member to a base class already passed, so the derived class gets one of its own). Proved for every program: C85_reachable (every theorem about Reachable states applies, so C15-C31 and C59 hold with deferred definitions), C85_later, C85_keeps, C85_answers, C85_origin (nothing appears that no call asked for); with callbacks that define into their own container only, C32 and C58 give equality with direct definitions."],
"C86": ["proved", "World after any list of calls (afterCalls, no Legal). C86_accepted: declaring any class as a base of any class succeeds. C86_inherited, C86_method, C86_property: exact answers; the third case is recursion without end whatever the stack (all fuels) and implies a circle. C86_cast: the pointer along the leftmost path, null, or no end, as inheritedFrom. C86_define: new members cannot be defined. C86_members, C86_values: values of such classes. Without deferred definitions (for those see C85, which assumes no circles)."],
"C87": ["partial", "False of the code in four ways, each with a witness: converting between types stored in the buffer leaves a moved-from object that is never destroyed (C87_leaves_objects_false), a converter that constructs its object and then declines loses it (C87_declined_false), a move constructor that throws loses the block allocated for the new object (C87_loses_block_false), and tryConvert ends the program when a move inside swap throws (C87_ends_program_false). For every program the answers, exceptions, ends and contents are proved exact against a machine without memory (C87_exact), the objects left over are counted exactly (C87_balance, C87_destroyed_iff), and so are the blocks (C87_leak_iff, C87_freed_iff)."],
"C88": ["partial", "False for arrays whose elements are pointers to const: C88_array_false. Otherwise proved for every variant: C88_type (with arrays: const is forgotten at every level), C88_read, C88_class (undefined exactly for a null pointer to a class with classInfo())."],
"C89": ["partial", "False: a converter that constructs an object and declines loses it (C89_false). Otherwise proved: what is assigned to what, how the write ends and that nothing remains (C89_assigned); setters (C89_setter); refused writes with exactly what is lost (C89_refused), nothing if no converter declines (C89_no_leak_partial); writes that do nothing (C89_nothing). Types can be moved without throwing, memory does not run out for setters."],
"C90": ["partial", "False: a pointer made by a converter that declines is lost (C90_false). Otherwise proved: the result is a reference to the very object (C90_reference), owns what a getter returned by value (C90_getter), or is empty (C90_nothing); refused reads with exactly what is lost (C90_refused), nothing if no converter declines (C90_no_leak_partial). Getters returning references: C82."],
"C91": ["partial", "For every number of threads, every interleaving and throw point: at most one query ends with the exception (C91_at_most_one), exactly one when all queries are over (C91_exactly_one, with the callback gone and the mark cleared), the callback is entered once, nobody waits (C91_wait_free), queries that do not overlap the callback answer with exactly what was defined (C91_answers_partial, C91_later, C91_in_turn). The rest is false of the code: an overlapping query sees less and is not told (C91_view_false), and a late one calls through the reset pointer (C91_null_false), which happens only after the failure (C91_null_late)."],
"C92": ["proved", "Members: C92_members, C92_members_end, C92_members_ends; attributes: C92_attributes. C92_one_moment_false marks the limit: the values (not the names) seen by one loop need never have been there together. Values are copied at the moment of the call; later reads through the reference are C65."],
"C93": ["partial", "False for types of the same text: one id, one description, one class, and variants of the one are taken to hold the other (C93_same_text_false, C93_same_text_class_false, C93_same_text_cast_false), and a class is not found by its own name (C93_own_name_false). Proved for every history and every assignment of non-empty texts: exactly when ids coincide (C93_ids), what is known about a type (C93_description), exactly which class find(name) finds (C93_found), agreement with find(id) (C93_by_type), a class just defined is found (C93_defined) and stays found (C93_stays). If texts tell the types of the program apart, comparing ids is comparing types (C93_holds_partial)."],
"C94": ["proved", "Model/VariantIds.lean follows the code with ids; C94_is, C94_reference, C94_to, C94_canConvert: the same answer as Model/Value.lean gives on the types, after every history, with the classes and converters then registered. What is assumed (structure AsTypes): the ids were asked for in the history (the code asks on the way), texts tell the types in use apart, no void, classInfo() answers with ids that may be looked at; C94_same_text_false and C94_answer_false show that texts and answers are needed."],
"C95": ["proved", "Model/CallIds.lean follows the code with ids; C95_argument, C95_static, C95_member, C95_method, C95_get, C95_set, C95_named, C95_named_get, C95_named_set: the same outcome as Model/Invoke.lean, after every history. What is assumed: AsTypes (C94) for every look a call can make (Fits, ArgFits, ObjFits); C95_same_text_false shows that different texts are needed."],
"C96": ["proved", "Model/EqualIds.lean follows the code with ids; C96_equal, C96_eq, C96_hash: the same outcome as Model/Equal.lean, after every history, with the same temporaries. What is assumed (Asked): the types involved were registered, are not void, and the types in use have different texts; C96_same_text_false shows that the last is needed."],
"C97": ["proved", "Under texts that tell the types in use apart, as in C94. C97_same_text_false shows what happens without; C97_class_text holds for any texts. C97_name_in_use_false: the class returned by _class<T> for a name in use is not T's."],
"C98": ["proved", "Under texts that tell the types in use apart, and answers of classInfo() that are ids given out, as in C94; the class asked for differs from that of the object held (the same class is C94_is)."],
"C99": ["proved", "Under texts that tell the types in use apart, and answers of classInfo() that are ids given out, as in C95; the class of the function or field differs from that of the object held. For pointers C99_member, C99_get, C99_set assume that no converter to a pointer to the class is registered, as the statement says; C99_converter_false shows what happens with one."]
}
