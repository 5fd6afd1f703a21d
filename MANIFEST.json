{
 "claims": [
  {
   "property": "C01",
   "status": "proved",
   "theorems": [
    "Rtti.Props.C01_answers",
    "Rtti.Props.C01_stable_in_any_program",
    "Rtti.Props.C01_total"
   ],
   "note": "ids through raw registration, look-ups and templates, until the registry is destroyed"
  },
  {
   "property": "C02",
   "status": "proved",
   "theorems": [
    "Rtti.Props.C02_first_wins",
    "Rtti.Props.C02_never_changes"
   ],
   "note": "any history"
  },
  {
   "property": "C03",
   "status": "proved",
   "theorems": [
    "Rtti.Props.C03_ids",
    "Rtti.Props.C03_cv_void_false",
    "Rtti.Props.C03_decay_fixed_point",
    "Rtti.Props.C03_decay_identifies"
   ],
   "note": "type-level fixed point and ids; assumes type names tell types apart; cv void (not a scalar or class) is the exception C03_cv_void_false"
  },
  {
   "property": "C04",
   "status": "partial",
   "theorems": [
    "Rtti.Props.C04_old_handle_exact",
    "Rtti.Props.C04_observe_invalid",
    "Rtti.Props.C04_no_ub",
    "Rtti.Props.C04_after_shutdown",
    "Rtti.Props.C04_invalid",
    "Rtti.Props.C04_old_handle_false",
    "Rtti.Props.C04_register_during_shutdown_false"
   ],
   "note": "false for handles obtained before shutdown (C04_old_handle_false; exactly those with a valid id once the registry is gone, C04_old_handle_exact) and for converters registered again during shutdown (C04_register_during_shutdown_false); proved for all other calls"
  },
  {
   "property": "C05",
   "status": "proved",
   "theorems": [
    "Rtti.Props.C05_arity_and_mask",
    "Rtti.Props.C05_decay",
    "Rtti.Props.C05_limit"
   ],
   "note": "below 16 pointer levels, as the property says; C05_limit shows the limit is real"
  },
  {
   "property": "C06",
   "status": "proved",
   "theorems": [
    "Rtti.Props.C06_flags",
    "Rtti.Props.C06_size",
    "Rtti.Props.C06_pointers",
    "Rtti.Props.C06_predicates",
    "Rtti.Props.C06_kinds",
    "Rtti.Props.C06_pointer_arity",
    "Rtti.Props.C06_reference_like_referred",
    "Rtti.Props.C06_surprises"
   ],
   "note": "Every predicate by its depth of pointers and innermost type (C06_kinds); C06_surprises records what the names do not say (arrays of class pointers)."
  },
  {
   "property": "C07",
   "status": "partial",
   "theorems": [
    "Rtti.Props.C07_exact_partial",
    "Rtti.Props.C07_exactly_qualification_conversion_partial",
    "Rtti.Props.C07_volatile_lref_false",
    "Rtti.Props.C07_volatile_dropped"
   ],
   "note": "Below 16 levels exactly C++ qualification conversion, except that rvalues are accepted for const volatile lvalue references (C07_exact_partial, C07_volatile_lref_false). From 16 levels on outer levels are ignored (C10_deep_answer, C08_deep_false)."
  },
  {
   "property": "C08",
   "status": "partial",
   "theorems": [
    "Rtti.Props.C08_answer",
    "Rtti.Props.C08_outside_arrays",
    "Rtti.Props.C08_array_to_pointer",
    "Rtti.Props.C08_deep_false",
    "Rtti.Props.C08_false",
    "Rtti.Props.C08_partial",
    "Rtti.Props.C08_array_never_grows"
   ],
   "note": "What compatible answers is given exactly for any two types, arrays included, up to 16 levels (C08_answer), beyond in C10. Nothing const becomes writable outside arrays (C08_outside_arrays, C08_array_to_pointer). Partial: false inside arrays of pointers (C08_false) and when 17 levels are compared (C08_deep_false)."
  },
  {
   "property": "C09",
   "status": "proved",
   "theorems": [
    "Rtti.Props.C09_transitive_deep",
    "Rtti.Props.C09_deep_exception",
    "Rtti.Props.C09_unrelated_not_transitive",
    "Rtti.Props.C09_reflexive",
    "Rtti.Props.C09_transitive",
    "Rtti.Props.C09_not_transitive_through_values"
   ],
   "note": "reflexive for every type; transitive for one decay class at every depth (C09_transitive below 16 levels, C09_transitive_deep up to 65535 with the one exception, C09_deep_exception); counterexamples through a copy and between unrelated types"
  },
  {
   "property": "C10",
   "status": "partial",
   "theorems": [
    "Rtti.Props.C10_terminates_iff",
    "Rtti.Props.C10_deep_answer",
    "Rtti.Props.C10_false",
    "Rtti.Props.C10_partial"
   ],
   "note": "False at 16 pointer levels (C10_false: bitset::test throws out of noexcept). Exactly when it terminates: C10_terminates_iff; what it answers at 16 and more levels: C10_deep_answer; below 16 always an answer: C10_partial."
  },
  {
   "property": "C11",
   "status": "partial",
   "theorems": [
    "Rtti.Props.C11_conversion_exact",
    "Rtti.Props.C11_answers_partial",
    "Rtti.Props.C11_total",
    "Rtti.Props.C11_conversion_partial",
    "Rtti.Props.C11_others_unaffected"
   ],
   "note": "Presence, return values and independence of pairs proved (C11_others_unaffected: answers for other pairs after any program); the function that runs is the first one of that functor type (C12_false), proved right when each functor type comes with one function. C11_conversion_exact: which function runs, and when it is the one in force, exactly."
  },
  {
   "property": "C12",
   "status": "partial",
   "theorems": [
    "Rtti.Props.C12_exact",
    "Rtti.Props.C12_false",
    "Rtti.Props.C12_partial"
   ],
   "note": "false of the code (C12_false): the function-local static keeps the old functor; proved for a functor type not used before for the pair Exactly: the new function runs iff it is the one of the first call there ever was for the pair with that functor type (C12_exact)."
  },
  {
   "property": "C13",
   "status": "partial",
   "theorems": [
    "Rtti.Props.C13_exact",
    "Rtti.Props.C13_flagged",
    "Rtti.Props.C13_partial",
    "Rtti.Props.C13_false",
    "Rtti.Props.C13_flagged_partial"
   ],
   "note": "false for converters with the flag parameter (C13_false); proved for the others Exactly when the result is right, and what a failing flagged converter does: C13_exact, C13_flagged."
  },
  {
   "property": "C14",
   "status": "proved",
   "theorems": [
    "Rtti.C14_refines_ordered_map",
    "Rtti.C14_positions_stable"
   ],
   "note": "refinement to an insertion-ordered map, any history"
  },
  {
   "property": "C15",
   "status": "proved",
   "theorems": [
    "Rtti.C15_accepts_iff_new",
    "Rtti.C15_lookups_agree",
    "Rtti.C15_items_never_move",
    "Rtti.C15_categories_independent"
   ],
   "note": "Any history of additions to all categories, null additions refused; each category shows exactly what was accepted for it (C15_categories_independent)."
  },
  {
   "property": "C16",
   "status": "proved",
   "theorems": [
    "Rtti.C16_members_enumeration",
    "Rtti.C16_attributes_enumeration",
    "Rtti.C16_contract_deterministic"
   ],
   "note": "attributes/elements and members; stated over the list the container holds"
  },
  {
   "property": "C17",
   "status": "proved",
   "theorems": [
    "Rtti.Props.C17_namespace",
    "Rtti.Props.C17_enum",
    "Rtti.Props.C17_class",
    "Rtti.Props.C17_method",
    "Rtti.Props.C17_property",
    "Rtti.Props.C17_constructor",
    "Rtti.Props.C17_empty_name_fails",
    "Rtti.Props.C17_unnamed",
    "Rtti.Props.C17_unnamed_class",
    "Rtti.Props.C17_refused"
   ],
   "note": "all six create functions, any reachable world, non-empty names (the empty-name failure is C17_empty_name_fails)"
  },
  {
   "property": "C18",
   "status": "proved",
   "theorems": [
    "Rtti.Props.C18_concurrent_definitions_agree",
    "Rtti.Props.C18_calls_end",
    "Rtti.Props.C18_empty_name_fails",
    "Rtti.Props.C18_alone"
   ],
   "note": "interleavings of any number of threads' get-or-create calls on one container, step by step; classes see C19; C18_alone: a call nobody interrupts does what the sequential function does, from any reachable state"
  },
  {
   "property": "C19",
   "status": "partial",
   "theorems": [
    "Rtti.Props.C19_class_per_type",
    "Rtti.Props.C19_unique",
    "Rtti.Props.C19_second_definition_refused",
    "Rtti.Props.C19_invalid_type_refused",
    "Rtti.Props.C19_concurrent_false",
    "Rtti.Props.C19_concurrent_partial",
    "Rtti.Props.C19_refused",
    "Rtti.Props.C19_concurrent_exact"
   ],
   "note": "single-threaded statement proved in full; the concurrent clause is false of the code (C19_concurrent_false); with threads nobody is refused without reason (C19_refused) C19_concurrent_exact: once the type can be found, another class for it appears exactly if a thread was past its checks and its name is free."
  },
  {
   "property": "C20",
   "status": "partial",
   "theorems": [
    "Rtti.Props.C20_false",
    "Rtti.Props.C20_partial",
    "Rtti.Props.C20_taken_name",
    "Rtti.Props.C20_exact"
   ],
   "note": "false of the code when the name is taken by another type (C20_false); proved for new names Exactly: right iff the name was unused or used for that type (C20_exact)."
  },
  {
   "property": "C21",
   "status": "proved",
   "theorems": [
    "Rtti.Props.C21_qualified_name",
    "Rtti.Props.C21_global",
    "Rtti.Props.C21_root",
    "Rtti.Props.C21_stable",
    "Rtti.Props.C21_distinct",
    "Rtti.Props.C21_path_identifies",
    "Rtti.Props.C21_collision_across_categories"
   ],
   "note": "any history of definitions and queries; names identify the item together with the categories along the path (C21_path_identifies), names alone do not (C21_collision_across_categories)"
  },
  {
   "property": "C22",
   "status": "proved",
   "theorems": [
    "Rtti.C22_find_first_denoted",
    "Rtti.C22_full_signature_exact",
    "Rtti.C22_short_name_first_overload"
   ],
   "note": "any list of signatures and any query"
  },
  {
   "property": "C23",
   "status": "proved",
   "theorems": [
    "Rtti.Props.C23_injective",
    "Rtti.Props.C23_format",
    "Rtti.Props.C23_text",
    "Rtti.Props.C23_function",
    "Rtti.Props.C23_hypotheses_needed",
    "Rtti.Props.C23_found"
   ],
   "note": "type names non-empty, bracket-balanced, no top-level comma; the hypotheses are needed (C23_hypotheses_needed)"
  },
  {
   "property": "C24",
   "status": "partial",
   "theorems": [
    "Rtti.Props.C24_exact",
    "Rtti.Props.C24_false",
    "Rtti.Props.C24_partial"
   ],
   "note": "false of the code for names with a parenthesis such as operator() (C24_false); proved for all other names Exactly: found iff there is no parenthesis in the name and no earlier method of that name (C24_exact)."
  },
  {
   "property": "C25",
   "status": "proved",
   "theorems": [
    "Rtti.Props.C25_inheritedFrom_iff_reaches",
    "Rtti.Props.C25_null",
    "Rtti.Props.C25_partial_order",
    "Rtti.Props.C25_self_base_diverges"
   ],
   "note": "histories whose declared bases are proper C++ bases (acyclic); C25_self_base_diverges shows the precondition is needed"
  },
  {
   "property": "C26",
   "status": "proved",
   "theorems": [
    "Rtti.Props.C26_mirror",
    "Rtti.Props.C26_lists",
    "Rtti.Props.C26_declaration_order",
    "Rtti.Props.C26_other_calls",
    "Rtti.Props.C26_any_mirror",
    "Rtti.Props.C26_any_lists",
    "Rtti.Props.C26_any_declaration",
    "Rtti.Props.C26_any_other_calls"
   ],
   "note": "Any calls at all, also with a class declared as its own base or classes as bases of one another (C26_any_mirror, C26_any_lists, C26_any_declaration, C26_any_other_calls); the others state the same for worlds with lazy definitions."
  },
  {
   "property": "C27",
   "status": "proved",
   "theorems": [
    "Rtti.Props.C27_upcast",
    "Rtti.Props.C27_null_iff"
   ],
   "note": "Hierarchies a C++ program can have (no circles); the cast in declared circles is C86_cast."
  },
  {
   "property": "C28",
   "status": "proved",
   "theorems": [
    "Rtti.Props.C28_any_path",
    "Rtti.Props.C28_two_steps",
    "Rtti.Props.C28_permutation",
    "Rtti.Props.C28_diamond_picks_first"
   ],
   "note": ""
  },
  {
   "property": "C29",
   "status": "proved",
   "theorems": [
    "Rtti.Props.C29_methods",
    "Rtti.Props.C29_properties",
    "Rtti.Props.C29_empty_name",
    "Rtti.Props.C29_constructors_not_inherited"
   ],
   "note": "Hierarchies a C++ program can have (no circles); look-ups in declared circles are C86_method, C86_property."
  },
  {
   "property": "C30",
   "status": "partial",
   "theorems": [
    "Rtti.Props.C30_false",
    "Rtti.Props.C30_false_property",
    "Rtti.Props.C30_never_overrides",
    "Rtti.Props.C30_method_partial",
    "Rtti.Props.C30_property_partial",
    "Rtti.Props.C30_exact",
    "Rtti.Props.C30_exact_property",
    "Rtti.Props.C30_signature_names_class",
    "Rtti.Props.C30_member_functions_partial"
   ],
   "note": "false of the code (C30_false): a static method or property a base has cannot be defined in the derived class; proved when no ancestor has it, and for member functions, whose signature names the class Exactly when the class gets its own: C30_exact, C30_exact_property."
  },
  {
   "property": "C31",
   "status": "proved",
   "theorems": [
    "Rtti.Props.C31_refused_unchanged",
    "Rtti.Props.C31_any"
   ],
   "note": "Any calls at all, also with circles: C31_any, which also says exactly when the declaration is refused; C31_refused_unchanged states the same for worlds with lazy definitions."
  },
  {
   "property": "C32",
   "status": "partial",
   "theorems": [
    "Rtti.Props.C32_runs_at_first_query",
    "Rtti.Props.C32_not_before",
    "Rtti.Props.C32_transparent_partial",
    "Rtti.Props.C32_install_then_query_partial",
    "Rtti.Props.C32_reentrant",
    "Rtti.Props.C32_attributes_false",
    "Rtti.Props.C32_self_install_false",
    "Rtti.Props.C32_plain_query",
    "Rtti.Props.C32_plain_op"
   ],
   "note": "Proved for callbacks that only define and query: runs at the first query, not before, re-entrant queries do not rerun it, and answers equal the eager run. False in two corners, with witnesses: setAttribute does not trigger the callback (so it is later overwritten), and a callback installing another lazy definition on its own container throws. C32_plain_query, C32_plain_op: when nothing is pending every query and definition is that of the model without lazy definitions."
  },
  {
   "property": "C33",
   "status": "partial",
   "theorems": [
    "Rtti.Props.C33_at_most_once_partial",
    "Rtti.Props.C33_sees_all_partial",
    "Rtti.Props.C33_wait_free",
    "Rtti.Props.C33_in_turn",
    "Rtti.Props.C33_views",
    "Rtti.Props.C33_null_late",
    "Rtti.Props.C33_partial_view_false",
    "Rtti.Props.C33_null_call_false",
    "Rtti.Props.C33_data_race_false",
    "Rtti.Props.C33_race_meaning"
   ],
   "note": "At most one invocation, never after release, queries that do not overlap the running callback see everything, queries made in turn run it exactly once and never wait: proved for every interleaving and number of definitions. The rest is false of the code: a query overlapping the callback sees part of the definitions, a late thread calls through the reset pointer, and the pointer accesses are a data race (witnesses). What an overlapping query can see is any number of definitions from none to all (C33_views); the null call happens only after the callback ended (C33_null_late)."
  },
  {
   "property": "C34",
   "status": "proved",
   "theorems": [
    "Rtti.Props.C34_failure",
    "Rtti.Props.C34_any_callback",
    "Rtti.Props.C34_no_mark_left",
    "Rtti.Props.C34_caught",
    "Rtti.Props.C34_only_exceptions",
    "Rtti.Props.C34_install_again"
   ],
   "note": "For every callback and throw point."
  },
  {
   "property": "C35",
   "status": "proved",
   "theorems": [
    "Rtti.Props.C35_in_order_at_most_once",
    "Rtti.Props.C35_second_install_throws",
    "Rtti.Props.C35_install_again"
   ],
   "note": "For every history of installs, definitions and queries."
  },
  {
   "property": "C36",
   "status": "partial",
   "theorems": [
    "Rtti.Props.C36_undefined_iff",
    "Rtti.Props.C36_leak_iff",
    "Rtti.Props.C36_history_proper",
    "Rtti.Props.C36_defined_partial",
    "Rtti.Props.C36_one_owner",
    "Rtti.Props.C36_no_leak_partial",
    "Rtti.Props.C36_all_freed_partial",
    "Rtti.Props.C36_array_of_objects_false",
    "Rtti.Props.C36_reads_raw_storage_false",
    "Rtti.Props.C36_reads_only",
    "Rtti.Props.C36_reads_partial",
    "Rtti.Props.C36_reads_move",
    "Rtti.Props.C36_reads_swap"
   ],
   "note": "False as stated (witnesses), but settled for every program: history in order (no double free/destroy), one owner per block; undefined behaviour happens exactly when a variant with an in-place non-trivial object is swapped with itself or an array of non-trivial objects is stored (C36_undefined_iff); the blocks in use are exactly those kept by variants plus those allocated by commands that threw (C36_leak_iff). Uninitialised storage is read only by swaps, moves and assignments of a variant whose object lies outside its buffer (C36_reads_only), by every move construction from one (C36_reads_move), by exactly the swaps C36_reads_swap names, and never if all objects fit the buffer (C36_reads_partial)."
  },
  {
   "property": "C37",
   "status": "partial",
   "theorems": [
    "Rtti.Props.C37_balance",
    "Rtti.Props.C37_destroyed_iff",
    "Rtti.Props.C37_at_most_once",
    "Rtti.Props.C37_heap_objects",
    "Rtti.Props.C37_without_moves_partial",
    "Rtti.Props.C37_moved_from_false",
    "Rtti.Props.C37_swap_false"
   ],
   "note": "False as stated: moved-from objects in the buffer are never destroyed (witnesses). Settled for every program: constructions = destructions + objects in variants + moves out of a buffer (C37_balance), so all objects are destroyed iff no such move happened (C37_destroyed_iff); destroyed at most once; heap objects always owned."
  },
  {
   "property": "C38",
   "status": "partial",
   "theorems": [
    "Rtti.Props.C38_exact",
    "Rtti.Props.C38_refines_values_partial",
    "Rtti.Props.C38_command_partial",
    "Rtti.Props.C38_no_termination_partial",
    "Rtti.Props.C38_self_assignment",
    "Rtti.Props.C38_intended",
    "Rtti.Props.C38_self_swap_false"
   ],
   "note": "Full refinement of a machine without memory, for every program and all types, exceptions, termination, arrays and self-swap included (C38_exact). With constructors that preserve values each successful command has the intended effect. The claim itself is false for self-swap of in-place objects (witness)."
  },
  {
   "property": "C39",
   "status": "partial",
   "theorems": [
    "Rtti.Props.C39_nothing_changes_partial",
    "Rtti.Props.C39_block_lost_false",
    "Rtti.Props.C39_out_of_memory_terminates_false"
   ],
   "note": "For every program: all variants and objects unchanged after a throw, at most one block lost; which programs lose blocks is settled by C36_leak_iff. The full claim is false (block lost, termination on bad_alloc; witnesses)."
  },
  {
   "property": "C40",
   "status": "partial",
   "theorems": [
    "Rtti.Props.C40_empty",
    "Rtti.Props.C40_other_type_partial",
    "Rtti.Props.C40_same_type_partial",
    "Rtti.Props.C40_object_partial",
    "Rtti.Props.C40_reflexive_partial",
    "Rtti.Props.C40_symmetric_partial",
    "Rtti.Props.C40_transitive_partial",
    "Rtti.Props.C40_asymmetric_false",
    "Rtti.Props.C40_pointer_array_false",
    "Rtti.Props.C40_array_terminate_false",
    "Rtti.Props.C40_deep",
    "Rtti.Props.C40_deep_same",
    "Rtti.Props.C40_deep_terminate_false",
    "Rtti.Props.C40_exact",
    "Rtti.Props.C40_ub_iff",
    "Rtti.Props.C40_terminate_iff"
   ],
   "note": "Every outcome of == on two variants of any types is given (C40_exact: equal, unequal, exception, termination, undefined behaviour; C40_ub_iff, C40_terminate_iff; C40_deep for types of 16 pointers or more); reflexive, symmetric (same type) and transitive (any types). Symmetry is false for int const*/int* and arrays of different length, comparing a pointer with an array is undefined behaviour, arrays whose elements' == throws or is missing end the program, and so does comparing types of 16 pointers or more whose const disagrees (C40_deep_terminate_false): witnesses given."
  },
  {
   "property": "C41",
   "status": "partial",
   "theorems": [
    "Rtti.Props.C41_partial",
    "Rtti.Props.C41_empty",
    "Rtti.Props.C41_bytes",
    "Rtti.Props.C41_representation_false",
    "Rtti.Props.C41_length_false",
    "Rtti.Props.C41_exact"
   ],
   "note": "Equal variants have equal hashes when equal objects of the type have the same bytes and the sizes agree; false in general (0.0 and -0.0, strings, arrays of different length): witnesses given for every injective hash. With a hash without collisions, hashes agree exactly when the bytes do (C41_exact)."
  },
  {
   "property": "C42",
   "status": "partial",
   "theorems": [
    "Rtti.Props.C42_reference_partial",
    "Rtti.Props.C42_fits_without_arrays",
    "Rtti.Props.C42_empty",
    "Rtti.Props.C42_data_partial",
    "Rtti.Props.C42_is_partial",
    "Rtti.Props.C42_own_type",
    "Rtti.Props.C42_base_class",
    "Rtti.Props.C42_null_object_false",
    "Rtti.Props.C42_pointer_alias",
    "Rtti.Props.C42_reference_exact",
    "Rtti.Props.C42_is_exact"
   ],
   "note": "Every overload of ref/cref/rref, data and is, on any sound variant, against any class graph: each outcome (value, bad_variant_cast, undefined, terminate) and exactly when it is the outcome (C42_reference_exact, C42_is_exact). Partial because the property is false in two cases: a null pointer to a class with classInfo() is dereferenced (C42_null_object_false), 16 or more pointer levels terminate the process (C10_terminates_iff)."
  },
  {
   "property": "C43",
   "status": "partial",
   "theorems": [
    "Rtti.Props.C43_to_partial",
    "Rtti.Props.C43_empty",
    "Rtti.Props.C43_canConvert_partial",
    "Rtti.Props.C43_canConvert_promises_nothing",
    "Rtti.Props.C43_tryConvert",
    "Rtti.Props.C43_to_exact",
    "Rtti.Props.C43_canConvert_exact"
   ],
   "note": "to<T> is characterised as a function of same type / base class / converter in this order, with every other outcome and exactly when (C43_to_exact, C43_canConvert_exact); canConvert false implies bad_variant_convert; tryConvert. Partial because canConvert may be true though to throws (C43_canConvert_promises_nothing) and because of the two cases of C42. to<T> also throws runtime_error for non-copyable types."
  },
  {
   "property": "C44",
   "status": "partial",
   "theorems": [
    "Rtti.Props.C44_keeps_const_partial",
    "Rtti.Props.C44_refused",
    "Rtti.Props.C44_const_variant",
    "Rtti.Props.C44_by_value_writable",
    "Rtti.Props.C44_false",
    "Rtti.Props.C44_own_array_false",
    "Rtti.Props.C44_rref_moves_referred",
    "Rtti.Props.C44_outside_arrays_partial",
    "Rtti.Props.C44_deep_partial",
    "Rtti.Props.C44_deep_false"
   ],
   "note": "References handed out keep const at every level outside arrays, for any variant and target of fewer than 16 pointer levels (C44_outside_arrays_partial), at every level for types without pointers inside arrays, and on the 16 innermost levels for deeper types (C44_deep_partial). False inside arrays of pointers (C44_false, C44_own_array_false) and on the outer levels of types with 16 pointers or more (C44_deep_false)."
  },
  {
   "property": "C45",
   "status": "partial",
   "theorems": [
    "Rtti.Props.C45_class_partial",
    "Rtti.Props.C45_invoke_partial",
    "Rtti.Props.C45_get_partial",
    "Rtti.Props.C45_set_partial",
    "Rtti.Props.C45_no_class",
    "Rtti.Props.C45_class_exact",
    "Rtti.Props.C45_null"
   ],
   "note": "class searched, method/property found (itself or inherited) and runtime_error otherwise, for invoke, get_property and set_property, over every reachable registry. Partial: a null pointer to a class with classInfo() is undefined behaviour in the code, and nothing else is (C45_class_exact, C45_null)."
  },
  {
   "property": "C46",
   "status": "partial",
   "theorems": [
    "Rtti.Props.C46_missing",
    "Rtti.Props.C46_category",
    "Rtti.Props.C46_outcome_partial",
    "Rtti.Props.C46_variant_partial",
    "Rtti.Props.C46_own_object_partial",
    "Rtti.Props.C46_const_ref_own",
    "Rtti.Props.C46_empty_variant",
    "Rtti.Props.C46_reference_wrapper_false",
    "Rtti.Props.C46_outcome_exact",
    "Rtti.Props.C46_variant_exact",
    "Rtti.Props.C46_empty_variant_argument"
   ],
   "note": "every outcome of argument::value characterised for plain arguments and for variants as arguments, including exactly when it is undefined (a null pointer to a class with classInfo() asked for as a pointer to another class) or terminates (C46_outcome_exact, C46_variant_exact). Partial: those two outcomes are not what the property promises; parameters that are references to arrays do not compile. C46_reference_wrapper_false: std::ref(x) as an argument counts as an rvalue of x."
  },
  {
   "property": "C47",
   "status": "partial",
   "theorems": [
    "Rtti.Props.C47_exact",
    "Rtti.Props.C47_leading",
    "Rtti.Props.C47_partial",
    "Rtti.Props.C47_false",
    "Rtti.Props.C47_ten_parameters_false",
    "Rtti.Props.C47_no_parameters"
   ],
   "note": "false with gaps: C47_false, and for member functions of ten parameters: C47_ten_parameters_false. True (both directions, with the wrap-around of size_t) when no argument follows a missing one; C47_leading says what is counted in general. C47_exact: judged right for all parameter counts exactly without gaps."
  },
  {
   "property": "C48",
   "status": "partial",
   "theorems": [
    "Rtti.Props.C48_const_pointer_exact",
    "Rtti.Props.C48_object_partial",
    "Rtti.Props.C48_invoke_partial",
    "Rtti.Props.C48_runs",
    "Rtti.Props.C48_refused",
    "Rtti.Props.C48_converter_false"
   ],
   "note": "false with a user-registered pointer converter: C48_converter_false; exactly then for pointers to const (C48_const_pointer_exact). Otherwise the object found is exactly the one the instance gives access to, as non-const for non-const functions."
  },
  {
   "property": "C49",
   "status": "partial",
   "theorems": [
    "Rtti.Props.C49_get_exact",
    "Rtti.Props.C49_set_exact",
    "Rtti.Props.C49_read_only",
    "Rtti.Props.C49_misuse",
    "Rtti.Props.C49_const_variant",
    "Rtti.Props.C49_const_object",
    "Rtti.Props.C49_set_where_partial",
    "Rtti.Props.C49_set_get_partial",
    "Rtti.Props.C49_static_set_get",
    "Rtti.Props.C49_get_const",
    "Rtti.Props.C49_getter_false",
    "Rtti.Props.C49_temporary_false",
    "Rtti.Props.C49_getter_not_const"
   ],
   "note": "false for getters returning a reference (C49_getter_false) and objects passed as they are (C49_temporary_false). Every outcome of reading and writing a property is given exactly (C49_get_exact, C49_set_exact). Proved for static objects and members: read-only, misuse, const instances, where set writes, get after set, constness of get. Objects reached through a user-registered pointer converter are excluded in the set-then-get theorems."
  },
  {
   "property": "C50",
   "status": "partial",
   "theorems": [
    "Rtti.Props.C50_exact",
    "Rtti.Props.C50_exact_get",
    "Rtti.Props.C50_exact_set",
    "Rtti.Props.C50_false",
    "Rtti.Props.C50_silent",
    "Rtti.Props.C50_named_partial"
   ],
   "note": "false: C50_false, C50_silent (every such instance is silently ignored by invoke/get/set of methods and properties). Holds for access by name: C50_named_partial. Exactly which calls, reads and writes are silently ignored: C50_exact, C50_exact_get, C50_exact_set."
  },
  {
   "property": "C51",
   "status": "partial",
   "theorems": [
    "Rtti.Props.C51_trees",
    "Rtti.Props.C51_scopes",
    "Rtti.Props.C51_start",
    "Rtti.Props.C51_balanced",
    "Rtti.Props.C51_stack_empty",
    "Rtti.Props.C51_unclosed",
    "Rtti.Props.C51_stack",
    "Rtti.Props.C51_method",
    "Rtti.Props.C51_property",
    "Rtti.Props.C51_constructor",
    "Rtti.Props.C51_enum",
    "Rtti.Props.C51_namespace",
    "Rtti.Props.C51_attribute",
    "Rtti.Props.C51_element",
    "Rtti.Props.C51_attribute_false",
    "Rtti.Props.C51_reuse_false",
    "Rtti.Props.C51_exception_stack_false",
    "Rtti.Props.C51_reuse",
    "Rtti.Props.C51_reuse_partial"
   ],
   "note": "Proved for every well-nested chain: it does what lexical scoping says (C51_trees, C51_scopes, with callbacks possibly pending), leaves container and stack as before (C51_balanced, C51_stack_empty), scopes may be left open (C51_unclosed); what each builder call defines and where (C51_method ... C51_element). False as stated in one point: _method, _property and _constructor do not become the current item, so an attribute after them goes to the class (C51_attribute_false). Outside fluent chains: re-using a builder object and exceptions (C51_reuse_false, C51_exception_stack_false). C51_reuse: exactly what several statements on one named builder object define (each starts where the first call of the one before led)."
  },
  {
   "property": "C52",
   "status": "partial",
   "theorems": [
    "Rtti.Props.C52_class",
    "Rtti.Props.C52_kinds",
    "Rtti.Props.C52_stable",
    "Rtti.Props.C52_null_partial",
    "Rtti.Props.C52_found",
    "Rtti.Props.C52_distinct",
    "Rtti.Props.C52_reserved_false",
    "Rtti.Props.C52_nonconst_copy_false",
    "Rtti.Props.C52_special_types_false",
    "Rtti.Props.C52_other_class_false",
    "Rtti.Props.C52_builder",
    "Rtti.Props.C52_null_exact",
    "Rtti.Props.C52_throws_iff",
    "Rtti.Props.C52_refused"
   ],
   "note": "Proved: a new class has exactly its special constructors, retrievable by kind (C52_class, C52_kinds, C52_builder); later constructors never change a non-null answer (C52_stable); a constructor with parameters is found by name and types for ever (C52_found), differing ones are different objects (C52_distinct); _class throws exactly if the name is free and the type has a class, and has then changed nothing (C52_throws_iff, C52_refused). Partial: a null answer stays null unless a reserved name or such a constructor is registered (C52_null_partial; exactly: C52_null_exact). False as stated: reserved names, constructors from C&, getConstructor<>() and getConstructor<C const&>(), a second type under the same class name (the four _false theorems)."
  },
  {
   "property": "C53",
   "status": "partial",
   "theorems": [
    "Rtti.Props.C53_defined_iff",
    "Rtti.Props.C53_separators",
    "Rtti.Props.C53_partial",
    "Rtti.Props.C53_exact",
    "Rtti.Props.C53_false",
    "Rtti.Props.C53_types",
    "Rtti.Props.C53_metatype_false",
    "Rtti.Props.C53_metatype_partial"
   ],
   "note": "False of the code (C53_false): the table is indexed by flag value, so most sets read outside it and some print wrong names. Exactly the sets with no known flag but Const and Pointer print right (C53_exact); C53_defined_iff says which sets stay inside the table. C53_types, C53_metatype_false: no set of flags a C++ type has is among them, so streaming a MetaType is undefined whatever was registered; where the flags can be printed the text is id, name and flags (C53_metatype_partial)."
  },
  {
   "property": "C54",
   "status": "partial",
   "theorems": [
    "Rtti.Props.C54_index_sequence_for_exact",
    "Rtti.Props.C54_index_sequence_for_iff",
    "Rtti.Props.C54_size",
    "Rtti.Props.C54_ends",
    "Rtti.Props.C54_get",
    "Rtti.Props.C54_concat_push",
    "Rtti.Props.C54_index",
    "Rtti.Props.C54_remove",
    "Rtti.Props.C54_remove_duplicates",
    "Rtti.Props.C54_unordered_equal",
    "Rtti.Props.C54_map_filter",
    "Rtti.Props.C54_foldl",
    "Rtti.Props.C54_foldr_partial",
    "Rtti.Props.C54_foldr_false",
    "Rtti.Props.C54_make_index_sequence",
    "Rtti.Props.C54_index_sequence_for_partial",
    "Rtti.Props.C54_index_sequence_for_false",
    "Rtti.Props.C54_tuple"
   ],
   "note": "all list functions proved except foldr (C54_foldr_false: inherits from the result instead of wrapping it) and index_sequence_for of a list whose only element is a list or tuple (C54_index_sequence_for_false; the answer for every list is C54_index_sequence_for_exact); both proved outside these cases"
  },
  {
   "property": "C55",
   "status": "partial",
   "theorems": [
    "Rtti.Props.C55_gcc",
    "Rtti.Props.C55_clang_partial",
    "Rtti.Props.C55_clang_false",
    "Rtti.Props.C55_exact",
    "Rtti.Props.C55_clang_exact"
   ],
   "note": "proved for GCC for every spelling; for Clang false when the spelling contains 'T =' (C55_clang_false), proved otherwise; the two shapes of __PRETTY_FUNCTION__ are assumptions; C55_exact, C55_clang_exact: what is cut out of any text at all, including the wrong names and the read outside of the text"
  },
  {
   "property": "C56",
   "status": "partial",
   "theorems": [
    "Rtti.Props.C56_null",
    "Rtti.Props.C56_const",
    "Rtti.Props.C56_plain",
    "Rtti.Props.C56_info",
    "Rtti.Props.C56_dynamic",
    "Rtti.Props.C56_unique",
    "Rtti.Props.C56_static",
    "Rtti.Props.C56_reference",
    "Rtti.Props.C56_macro_false",
    "Rtti.Props.C56_unregistered_false"
   ],
   "note": "Proved: null, constness, types without class information, reference form; for any class a virtual classInfo() may report, the cast answers with the upcast of that subobject or null (C56_info); non-null exactly when the dynamic class is the target or derives from it (C56_dynamic), independent of the static type (C56_static) and, for unique subobjects, of the declaration order (C56_unique). The statement needs DECLARE_CLASSINFO in the object's own class (C56_macro_false) and that class registered (C56_unregistered_false)."
  },
  {
   "property": "C57",
   "status": "partial",
   "theorems": [
    "Rtti.Props.C57_construct",
    "Rtti.Props.C57_destruct",
    "Rtti.Props.C57_deallocate",
    "Rtti.Props.C57_blocks",
    "Rtti.Props.C57_no_leak_partial",
    "Rtti.Props.C57_objects",
    "Rtti.Props.C57_exception",
    "Rtti.Props.C57_defined",
    "Rtti.Props.C57_null",
    "Rtti.Props.C57_leak_false",
    "Rtti.Props.C57_array_leak_false",
    "Rtti.Props.C57_uninitialised_false",
    "Rtti.Props.C57_array_copy_false",
    "Rtti.Props.C57_handles_false",
    "Rtti.Props.C57_void_false"
   ],
   "note": "Proved for every history of calls with arbitrary constructor outcomes and allocation failures: what construct makes (C57_construct), destruct (C57_destruct), the heap is exactly what is held plus what throwing calls left (C57_blocks), object accounting (C57_objects), when it is defined (C57_defined). Partial: no leak if nothing throws (C57_no_leak_partial). False as stated: a throwing or missing constructor leaks the block (C57_leak_false), a throwing array element leaks objects (C57_array_leak_false), trivial types stay uninitialised, copies of non-trivial arrays are UB, invalid and void handles. C57_void_false: every function of the handle of void looks into a missing table."
  },
  {
   "property": "C58",
   "status": "partial",
   "theorems": [
    "Rtti.Props.C58_method_partial",
    "Rtti.Props.C58_property_partial",
    "Rtti.Props.C58_foreign_callback_false",
    "Rtti.Props.C58_method_any",
    "Rtti.Props.C58_property_any"
   ],
   "note": "Proved in full for callbacks that define only into their own container (C58_method_partial, C58_property_partial). Whatever the callbacks do: what is found is a member of the class or an ancestor; otherwise the class and every ancestor was searched at a moment when its own definition was complete and it had no such member, so nothing that was there before is missed (C58_method_any, C58_property_any). A callback that defines into a base already searched is missed (witness C58_foreign_callback_false)."
  },
  {
   "property": "C59",
   "status": "partial",
   "theorems": [
    "Rtti.Props.C59_items_stable",
    "Rtti.Props.C59_own_members_partial",
    "Rtti.Props.C59_namespace_methods",
    "Rtti.Props.C59_false_inherited",
    "Rtti.Props.C59_inherited",
    "Rtti.Props.C59_inherited_property"
   ],
   "note": "proved for items, types, constructors and own members; false for inherited members (C59_false_inherited) Inherited members: an answer is never lost, and stays unless a class searched in vain gets a base or such a member (C59_inherited, C59_inherited_property)."
  },
  {
   "property": "C60",
   "status": "partial",
   "theorems": [
    "Rtti.Props.C60_direct",
    "Rtti.Props.C60_empty",
    "Rtti.Props.C60_decision_partial",
    "Rtti.Props.C60_determined",
    "Rtti.Props.C60_temporaries_partial",
    "Rtti.Props.C60_leak_false",
    "Rtti.Props.C60_array_false",
    "Rtti.Props.C60_exact",
    "Rtti.Props.C60_temporaries_exact"
   ],
   "note": "Every outcome of eq is given for all types (C60_exact), and exactly which temporaries are destroyed, for all types (C60_temporaries_exact). The property is false of the code where a converter declines after making a value (leaked temporary) and for arrays (pointer into a buffer already gone): witnesses given."
  },
  {
   "property": "C61",
   "status": "proved",
   "theorems": [
    "Rtti.Props.C61_define",
    "Rtti.Props.C61_lookup",
    "Rtti.Props.C61_hierarchy"
   ],
   "note": "All defining calls of the modelled API (C61_define), look-ups (C61_lookup), inheritance and casts (C61_hierarchy). The fuel hypothesis only bounds the interpreter from below; the divergence hypothesis is about the call without lazy definitions."
  },
  {
   "property": "C62",
   "status": "partial",
   "theorems": [
    "Rtti.Props.C62_all_run_partial",
    "Rtti.Props.C62_not_wedged",
    "Rtti.Props.C62_self",
    "Rtti.Props.C62_no_deadlock_partial",
    "Rtti.Props.C62_exception",
    "Rtti.Props.C62_false",
    "Rtti.Props.C62_deadlock_false",
    "Rtti.Props.C62_earlier_run"
   ],
   "note": "Forcing a container alone runs everything accepted for it, however it ends (C62_self, no assumption). Recursively: whatever the callbacks do, all definitions accepted before the walk for containers of the tree have run by its end, once each and in order, and what is pending then was installed meanwhile (C62_earlier_run); nothing is pending when callbacks install no further ones (C62_all_run_partial); never wedged, exceptions (proved); returns whenever the walk without locks does, for callbacks that define into their own container. False in general: a callback that installs on a visited container leaves it pending, one that defines a sibling deadlocks."
  },
  {
   "property": "C63",
   "status": "partial",
   "theorems": [
    "Rtti.Props.C63_enumeration",
    "Rtti.Props.C63_outcome",
    "Rtti.Props.C63_deadlock_false"
   ],
   "note": "What an enumeration that returns did is proved for every user function (C63_enumeration). It need not return: defining into the enumerated list deadlocks (C63_deadlock_false). Every outcome of an enumeration: C63_outcome."
  },
  {
   "property": "C64",
   "status": "partial",
   "theorems": [
    "Rtti.Props.C64_value_partial",
    "Rtti.Props.C64_answers",
    "Rtti.Props.C64_cached_partial",
    "Rtti.Props.C64_race_iff",
    "Rtti.Props.C64_data_race_false",
    "Rtti.Props.C64_global_always_written_false"
   ],
   "note": "The values are right under every interleaving, reading string accesses as atomic, and every thread gets its answer after three own steps per item of the path (C64_answers); nothing is written for names cached before. False: two threads asking for different names write and read the cache of the global namespace at the same time; a race can happen exactly when the names of two threads share an item not cached before (C64_race_iff)."
  },
  {
   "property": "C65",
   "status": "partial",
   "theorems": [
    "Rtti.Props.C65_reference_live_partial",
    "Rtti.Props.C65_race_same_name_partial",
    "Rtti.Props.C65_exclusive",
    "Rtti.Props.C65_race_iff",
    "Rtti.Props.C65_lookup",
    "Rtti.Props.C65_set",
    "Rtti.Props.C65_data_race_false"
   ],
   "note": "References never dangle and show the value last set; only users of the same name interfere; a set that nobody interrupts sets (C65_set). False: the reference is read without the lock under which set assigns to it; two threads race exactly when one is setting the attribute the other holds a reference to (C65_race_iff). C65_lookup: a look-up and a read give the value last set, or the empty variant."
  },
  {
   "property": "C66",
   "status": "partial",
   "theorems": [
    "Rtti.Props.C66_attributes",
    "Rtti.Props.C66_attributes_untouched_partial",
    "Rtti.Props.C66_attribute_throws_iff",
    "Rtti.Props.C66_index_false",
    "Rtti.Props.C66_leak_false",
    "Rtti.Props.C66_members",
    "Rtti.Props.C66_member_throws_iff",
    "Rtti.Props.C66_members_untouched_partial",
    "Rtti.Props.C66_no_fault",
    "Rtti.Props.C66_create_unchanged_partial",
    "Rtti.Props.C66_namespace_throws_iff",
    "Rtti.Props.C66_class_throws_iff",
    "Rtti.Props.C66_duplicate_false",
    "Rtti.Props.C66_class_false",
    "Rtti.Props.C66_attributes_exact",
    "Rtti.Props.C66_members_exact",
    "Rtti.Props.C66_create_index"
   ],
   "note": "Look-ups and enumeration of what completed calls defined, for every pattern of failures (proved); exactly when a call throws, for each kind of definition (C66_*_throws_iff); failed calls leave no trace unless the failing allocation is the name index. False there (orphan items, duplicates), and objects leak when the vector cannot grow. What one more call does to the lists after any pattern of failures, exactly: C66_attributes_exact, C66_members_exact, C66_create_index."
  },
  {
   "property": "C67",
   "status": "proved",
   "theorems": [
    "Rtti.Props.C67_ids",
    "Rtti.Props.C67_description",
    "Rtti.Props.C67_stable",
    "Rtti.Props.C67_exclusive",
    "Rtti.Props.C67_no_deadlock"
   ],
   "note": "Any interleaving of any number of threads; the guard of each function-local static is modelled as the language defines it."
  },
  {
   "property": "C68",
   "status": "partial",
   "theorems": [
    "Rtti.Props.C68_describes",
    "Rtti.Props.C68_functor",
    "Rtti.Props.C68_supported",
    "Rtti.Props.C68_false",
    "Rtti.Props.C68_invoker",
    "Rtti.Props.C68_functor_false"
   ],
   "note": "Whenever there are traits they are right, also for objects with an operator() (C68_describes, C68_functor); exactly the noexcept member functions with a ref-qualifier or volatile, and std::function, have none (does not compile). Lambdas count as member functions of their closure class: C68_functor_false."
  },
  {
   "property": "C69",
   "status": "partial",
   "theorems": [
    "Rtti.Props.C69_exact",
    "Rtti.Props.C69_order_partial",
    "Rtti.Props.C69_once_partial",
    "Rtti.Props.C69_moved_false",
    "Rtti.Props.C69_moved"
   ],
   "note": "What any block does, moves included (C69_exact); each guard that is not moved runs once, in reverse order. False for moved guards, which run once more for each move (C69_moved, C69_moved_false)."
  },
  {
   "property": "C70",
   "status": "partial",
   "theorems": [
    "Rtti.Props.C70_all_destroyed",
    "Rtti.Props.C70_order",
    "Rtti.Props.C70_dangling_false",
    "Rtti.Props.C70_find_null",
    "Rtti.Props.C70_names_kept",
    "Rtti.Props.C70_walk_partial",
    "Rtti.Props.C70_member_partial",
    "Rtti.Props.C70_walk_false"
   ],
   "note": "Everything is destroyed exactly once (C70_all_destroyed), owners before what they own (C70_order, with the order among members). False for queries: types made first leaves destroyed classes findable by type (C70_dangling_false); namespace made first makes walks over bases use a null description (C70_walk_false; exactly which: C70_walk_partial, C70_member_partial)."
  },
  {
   "property": "C71",
   "status": "proved",
   "theorems": [
    "Rtti.Props.C71_undisturbed",
    "Rtti.Props.C71_which_false",
    "Rtti.Props.C71_answers",
    "Rtti.Props.C71_bases_kept",
    "Rtti.Props.C71_no_deadlock",
    "Rtti.Props.C71_ends",
    "Rtti.Props.C71_all_done",
    "Rtti.Props.C71_walks_undisturbed"
   ],
   "note": "Every interleaving, no bound on threads or classes: answers, no deadlock, end of every schedule, mirror of the lists. Without a declaration meanwhile the class found is the one a single thread finds (C71_undisturbed); with declarations, which of several members is found may be right at no moment (C71_which_false; the statement only says found or not). Reading lock acquisition as in the standard; cyclic hierarchies excluded (they cannot be C++ classes); no pending lazy definition (C33)."
  },
  {
   "property": "C72",
   "status": "partial",
   "theorems": [
    "Rtti.Props.C72_linearizable",
    "Rtti.Props.C72_own_function_partial",
    "Rtti.Props.C72_own_function_false",
    "Rtti.Props.C72_one_winner",
    "Rtti.Props.C72_no_deadlock",
    "Rtti.Props.C72_ends",
    "Rtti.Props.C72_first_exact"
   ],
   "note": "Linearizable under every interleaving (C72_linearizable), one winner, no deadlock. False: the function that runs need not be the winner's when two functors of one type compete (C72_own_function_false); otherwise it is (C72_own_function_partial). C72_first_exact: the function used is exactly that of the thread first at the static."
  },
  {
   "property": "C73",
   "status": "partial",
   "theorems": [
    "Rtti.Props.C73_argument",
    "Rtti.Props.C73_arguments",
    "Rtti.Props.C73_object",
    "Rtti.Props.C73_static",
    "Rtti.Props.C73_member",
    "Rtti.Props.C73_named",
    "Rtti.Props.C73_runs_partial",
    "Rtti.Props.C73_static_by_name_false",
    "Rtti.Props.C73_result"
   ],
   "note": "Every outcome of a call given exactly, from end to end: C73_argument, C73_arguments, C73_object, C73_static, C73_member, C73_named; what a running call was given: C73_runs_partial; what is returned: C73_result. False for static functions called by name, which get the instance as their first argument (C73_static_by_name_false)."
  },
  {
   "property": "C74",
   "status": "partial",
   "theorems": [
    "Rtti.Props.C74_method",
    "Rtti.Props.C74_property",
    "Rtti.Props.C74_kept",
    "Rtti.Props.C74_kept_property",
    "Rtti.Props.C74_call",
    "Rtti.Props.C74_by_signature_partial",
    "Rtti.Props.C74_by_name_partial",
    "Rtti.Props.C74_signature",
    "Rtti.Props.C74_types",
    "Rtti.Props.C74_access",
    "Rtti.Props.C74_own_access_partial",
    "Rtti.Props.C74_dropped",
    "Rtti.Props.C74_false"
   ],
   "note": "Every method and property object runs what the registration that made it was given (C74_method, C74_property), and keeps doing so (C74_kept, C74_kept_property). A call by name runs a function the program registered for the class or an ancestor under that name or signature, or throws runtime_error exactly when there is none (C74_call, C74_access); asked by signature it has the parameter types asked for (C74_types); own registrations win, by signature and, for the first of that name, by name (C74_by_signature_partial, C74_by_name_partial, C74_own_access_partial). False: a registration is silently dropped when the class has or inherits a method of the same signature (C74_dropped), which includes a static f(B&) next to the member B::f() (C74_false)."
  },
  {
   "property": "C75",
   "status": "partial",
   "theorems": [
    "Rtti.Props.C75_undisturbed",
    "Rtti.Props.C75_finished",
    "Rtti.Props.C75_exclusive",
    "Rtti.Props.C75_grows",
    "Rtti.Props.C75_ends",
    "Rtti.Props.C75_no_deadlock_partial",
    "Rtti.Props.C75_readers_first_partial",
    "Rtti.Props.C75_all_done_partial",
    "Rtti.Props.C75_own_list",
    "Rtti.Props.C75_recursive_false",
    "Rtti.Props.C75_crossed_false",
    "Rtti.Props.C75_own_list_false"
   ],
   "note": "Deadlocks are real: functions that read the enumerated list under a writer-preferring lock, or that add across lists, or to the list itself (C75_*_false, C75_own_list). Everything else for all programs; freedom from deadlock for functions that only use lists of greater rank (either lock policy) and for functions that only read (readers first)."
  },
  {
   "property": "C76",
   "status": "partial",
   "theorems": [
    "Rtti.Props.C76_object",
    "Rtti.Props.C76_kept",
    "Rtti.Props.C76_construct",
    "Rtti.Props.C76_signature",
    "Rtti.Props.C76_conversion",
    "Rtti.Props.C76_to",
    "Rtti.Props.C76_const_false",
    "Rtti.Props.C76_derived_false"
   ],
   "note": "Proved for all programs: every constructor object runs the registered constructor (C76_object), registrations with a new signature stay found (C76_kept), all outcomes of constructing (C76_construct), the signatures spelled out (C76_signature), the conversion in effect is the first registered one (C76_conversion), and variants are converted by it (C76_to). False in the code, with witnesses: const is dropped (C76_const_false), objects of derived classes are not converted (C76_derived_false). Unregistering is C11."
  },
  {
   "property": "C77",
   "status": "partial",
   "theorems": [
    "Rtti.Props.C77_handlers",
    "Rtti.Props.C77_define",
    "Rtti.Props.C77_unchanged",
    "Rtti.Props.C77_lookup",
    "Rtti.Props.C77_program",
    "Rtti.Props.C77_casts",
    "Rtti.Props.C77_to_partial",
    "Rtti.Props.C77_argument_partial",
    "Rtti.Props.C77_calls",
    "Rtti.Props.C77_count",
    "Rtti.Props.C77_meta_cast",
    "Rtti.Props.C77_to_false",
    "Rtti.Props.C77_define_caught",
    "Rtti.Props.C77_cast_caught",
    "Rtti.Props.C77_to_caught",
    "Rtti.Props.C77_missing_caught",
    "Rtti.Props.C77_count_caught",
    "Rtti.Props.C77_meta_cast_caught",
    "Rtti.Props.C77_unknown_name_caught",
    "Rtti.Props.C77_install_caught"
   ],
   "note": "Which defining calls throw and why (iff), that a refused one changes nothing, that look-ups never throw and that no program lets a foreign exception out are proved for all states; casts, conversions, arguments, calls, properties and calls by name likewise. Missing: conversions and parameters of types that cannot be copied, which fail with a plain runtime_error (C77_to_false)."
  },
  {
   "property": "C78",
   "status": "proved",
   "theorems": [
    "Rtti.Props.C78_stands",
    "Rtti.Props.C78_value",
    "Rtti.Props.C78_referred",
    "Rtti.Props.C78_to",
    "Rtti.Props.C78_apart",
    "Rtti.Props.C78_write",
    "Rtti.Props.C78_pointer",
    "Rtti.Props.C78_shown",
    "Rtti.Props.C78_call",
    "Rtti.Props.C78_call_pointer"
   ],
   "note": "Storage (VariantMem) and readers (Value) joined over a layout of memory: in every reachable state, exceptions and writes through references included, a variant with a value is sound for the readers and stands for an object of its own with this value (C78_stands), which ref, data, is and to give (C78_value, C78_to, arrays included); references (C78_referred); no sharing (C78_apart); a write through ref changes one variant (C78_write); the registered function runs on the stored object (C78_call, by exact signature, classInfo truthful for complete objects; through a stored pointer: C78_pointer, C78_call_pointer); an environment showing the memory exists for every reachable state (C78_shown)."
  },
  {
   "property": "C79",
   "status": "partial",
   "theorems": [
    "Rtti.Props.C79_remove_all_cv",
    "Rtti.Props.C79_add_pointers",
    "Rtti.Props.C79_remove_all_pointers",
    "Rtti.Props.C79_array_length",
    "Rtti.Props.C79_base_type",
    "Rtti.Props.C79_questions",
    "Rtti.Props.C79_class_pointer_partial",
    "Rtti.Props.C79_class_pointer_false",
    "Rtti.Props.C79_comparable_partial",
    "Rtti.Props.C79_comparable_false",
    "Rtti.Props.C79_copyable_partial",
    "Rtti.Props.C79_copyable_false",
    "Rtti.Props.C79_class_pointer_exact",
    "Rtti.Props.C79_copyable_exact",
    "Rtti.Props.C79_comparable_exact"
   ],
   "note": "All traits are proved for every type (only has_move_constructor and is_template_type, unused by the library, are not modelled). That MetaType::isClassPtr and the flags agree with them is proved apart from pointers to arrays, arrays and pointers, where it is false: witnesses given. Exactly where they disagree: C79_class_pointer_exact, C79_copyable_exact, C79_comparable_exact."
  },
  {
   "property": "C80",
   "status": "partial",
   "theorems": [
    "Rtti.Props.C80_aligned_partial",
    "Rtti.Props.C80_exact",
    "Rtti.Props.C80_which",
    "Rtti.Props.C80_false"
   ],
   "note": "False of the code (long double in a variant at an address that is 8 modulo 16). Exact: safe for all programs and placements iff the alignment divides 8 (kept in place) or 16 (heap); for legal alignments in-place types go wrong iff size and alignment are 16, heap types iff over-aligned."
  },
  {
   "property": "C81",
   "status": "partial",
   "theorems": [
    "Rtti.Props.C81_reached",
    "Rtti.Props.C81_refused",
    "Rtti.Props.C81_member_reached",
    "Rtti.Props.C81_member_refused",
    "Rtti.Props.C81_member_nothing",
    "Rtti.Props.C81_outcome",
    "Rtti.Props.C81_exact",
    "Rtti.Props.C81_no_leak_partial",
    "Rtti.Props.C81_declined_false",
    "Rtti.Props.C81_dummy_false",
    "Rtti.Props.C81_block_false",
    "Rtti.Props.C81_result",
    "Rtti.Props.C81_result_end",
    "Rtti.Props.C81_result_no_leak_partial",
    "Rtti.Props.C81_result_block_false",
    "Rtti.Props.C81_result_reached",
    "Rtti.Props.C81_result_refused",
    "Rtti.Props.C81_member_result_reached",
    "Rtti.Props.C81_member_result_refused",
    "Rtti.Props.C81_member_result_nothing"
   ],
   "note": "False: a converter that constructs and declines, a small non-trivial value in m_dummy, and a throwing move into m_dummy each lose an object or a block (_false theorems). C81_outcome: how every call ends, never with undefined behaviour, the function sees the converted values alive. C81_exact: exactly which objects and blocks are lost, everything older unchanged. C81_no_leak_partial: nothing is lost otherwise, whatever throws. C81_reached, C81_refused: the same for calls through the reflection interface, in terms of what the parameters are bound to (invoke of C44-C46): a call that reaches the function loses exactly the small converted values bound to references, one that is refused those before the failing argument and what a declining converter constructed. C81_member_reached, C81_member_refused, C81_member_nothing: the same for member functions, whose instance may be converted too. C81_result, C81_result_end, C81_result_reached, C81_member_result_reached (and _refused, _nothing): calls that return a value and constructors: the result owns the value returned, nothing else remains but what is lost without a result; and the block of a large value whose move throws (C81_result_block_false). Any allocation may fail (in C81_reached and C81_refused none does): then nothing more is lost, but the program is terminated if the move constructor is noexcept. What the user's function does with its parameters beyond reading them is not modelled."
  },
  {
   "property": "C82",
   "status": "partial",
   "theorems": [
    "Rtti.Props.C82_same_call",
    "Rtti.Props.C82_own_object_false",
    "Rtti.Props.C82_direct_partial",
    "Rtti.Props.C82_which",
    "Rtti.Props.C82_order"
   ],
   "note": "False, exactly: a reference to a parameter that was converted or passed by value is to an object that is gone when the call has returned (C82_own_object_false, for every such call; which those are: C82_which, C82_order); objects that existed before the call are untouched, so references to parameters bound directly stay good (C82_direct_partial). The call is otherwise the same (C82_same_call)."
  },
  {
   "property": "C83",
   "status": "partial",
   "theorems": [
    "Rtti.Props.C83_answers_partial",
    "Rtti.Props.C83_ids",
    "Rtti.Props.C83_retry",
    "Rtti.Props.C83_known",
    "Rtti.Props.C83_lost",
    "Rtti.Props.C83_shutdown",
    "Rtti.Props.C83_freed",
    "Rtti.Props.C83_exit_freed",
    "Rtti.Props.C83_no_fault",
    "Rtti.Props.C83_converter_false",
    "Rtti.Props.C83_has_false",
    "Rtti.Props.C83_decay_false",
    "Rtti.Props.C83_exit_false",
    "Rtti.Props.C83_base_left",
    "Rtti.Props.C83_base_retry",
    "Rtti.Props.C83_base_no_fault",
    "Rtti.Props.C83_base_exact",
    "Rtti.Props.C83_base_false"
   ],
   "note": "False as stated: a registerConverter that throws leaves its static constructed, and a later call that returns true runs its function (C83_converter_false); hasConverter is noexcept and ends the program (C83_has_false), as does a destructor at exit (C83_exit_false); a failed metaTypeId may leave the decayed type registered (C83_decay_false); addBaseClass may leave the base listed but not the derived class (C83_base_false; when it throws: C83_base_exact). Proved for every program and every choice of failing allocations: no undefined behaviour, exact converter answers (C83_answers_partial), ids stable and distinct (C83_ids), retry (C83_retry, C83_base_retry), known types need no memory (C83_known), lost objects bounded (C83_lost) and freed at exit (C83_freed, C83_exit_freed), shutdown (C83_shutdown)."
  },
  {
   "property": "C84",
   "status": "partial",
   "theorems": [
    "Rtti.Props.C84_moment_false",
    "Rtti.Props.C84_answers",
    "Rtti.Props.C84_undisturbed",
    "Rtti.Props.C84_no_deadlock",
    "Rtti.Props.C84_ends",
    "Rtti.Props.C84_all_done",
    "Rtti.Props.C84_lists_undisturbed"
   ],
   "note": "Every interleaving, no bound on threads or classes: an address is a composition of declared casters along a way up, null only if the target was no base at the call (C84_answers); without a declaration meanwhile the answer is that of a single thread (C84_undisturbed); no deadlock, end of every schedule, lists undisturbed. False: with declarations meanwhile the address may be one that no single-threaded call would give at any moment (C84_moment_false). Cyclic hierarchies excluded (they cannot be C++ classes); no pending lazy definition (C33); the null pointer for 'not found' is told apart from a caster's null result."
  },
  {
   "property": "C85",
   "status": "partial",
   "theorems": [
    "Rtti.Props.C85_reachable",
    "Rtti.Props.C85_later",
    "Rtti.Props.C85_answers",
    "Rtti.Props.C85_keeps",
    "Rtti.Props.C85_origin",
    "Rtti.Props.C85_missed_false"
   ],
   "note": "False in the last sentence: C85_missed_false (a callback run by a look-up may add a member to a base class already passed, so the derived class gets one of its own). Proved for every program: C85_reachable (every theorem about Reachable states applies, so C15-C31 and C59 hold with deferred definitions), C85_later, C85_keeps, C85_answers, C85_origin (nothing appears that no call asked for); with callbacks that define into their own container only, C32 and C58 give equality with direct definitions."
  },
  {
   "property": "C86",
   "status": "proved",
   "theorems": [
    "Rtti.Props.C86_accepted",
    "Rtti.Props.C86_inherited",
    "Rtti.Props.C86_cast",
    "Rtti.Props.C86_method",
    "Rtti.Props.C86_property",
    "Rtti.Props.C86_define",
    "Rtti.Props.C86_members",
    "Rtti.Props.C86_values"
   ],
   "note": "World after any list of calls (afterCalls, no Legal). C86_accepted: declaring any class as a base of any class succeeds. C86_inherited, C86_method, C86_property: exact answers; the third case is recursion without end whatever the stack (all fuels) and implies a circle. C86_cast: the pointer along the leftmost path, null, or no end, as inheritedFrom. C86_define: new members cannot be defined. C86_members, C86_values: values of such classes. Without deferred definitions (for those see C85, which assumes no circles)."
  },
  {
   "property": "C87",
   "status": "partial",
   "theorems": [
    "Rtti.Props.C87_exact",
    "Rtti.Props.C87_failed",
    "Rtti.Props.C87_succeeded",
    "Rtti.Props.C87_value",
    "Rtti.Props.C87_answer",
    "Rtti.Props.C87_defined",
    "Rtti.Props.C87_catches",
    "Rtti.Props.C87_history_proper",
    "Rtti.Props.C87_balance",
    "Rtti.Props.C87_destroyed_iff",
    "Rtti.Props.C87_leaves_objects_false",
    "Rtti.Props.C87_declined_false",
    "Rtti.Props.C87_ends_program_false",
    "Rtti.Props.C87_leak_iff",
    "Rtti.Props.C87_freed_iff",
    "Rtti.Props.C87_loses_block_false"
   ],
   "note": "False of the code in four ways, each with a witness: converting between types stored in the buffer leaves a moved-from object that is never destroyed (C87_leaves_objects_false), a converter that constructs its object and then declines loses it (C87_declined_false), a move constructor that throws loses the block allocated for the new object (C87_loses_block_false), and tryConvert ends the program when a move inside swap throws (C87_ends_program_false). For every program the answers, exceptions, ends and contents are proved exact against a machine without memory (C87_exact), the objects left over are counted exactly (C87_balance, C87_destroyed_iff), and so are the blocks (C87_leak_iff, C87_freed_iff)."
  },
  {
   "property": "C88",
   "status": "partial",
   "theorems": [
    "Rtti.Props.C88_type",
    "Rtti.Props.C88_read",
    "Rtti.Props.C88_class",
    "Rtti.Props.C88_array_false"
   ],
   "note": "False for arrays whose elements are pointers to const: C88_array_false. Otherwise proved for every variant: C88_type (with arrays: const is forgotten at every level), C88_read, C88_class (undefined exactly for a null pointer to a class with classInfo())."
  },
  {
   "property": "C89",
   "status": "partial",
   "theorems": [
    "Rtti.Props.C89_assigned",
    "Rtti.Props.C89_setter",
    "Rtti.Props.C89_nothing",
    "Rtti.Props.C89_refused",
    "Rtti.Props.C89_no_leak_partial",
    "Rtti.Props.C89_false"
   ],
   "note": "False: a converter that constructs an object and declines loses it (C89_false). Otherwise proved: what is assigned to what, how the write ends and that nothing remains (C89_assigned); setters (C89_setter); refused writes with exactly what is lost (C89_refused), nothing if no converter declines (C89_no_leak_partial); writes that do nothing (C89_nothing). Types can be moved without throwing, memory does not run out for setters."
  },
  {
   "property": "C90",
   "status": "partial",
   "theorems": [
    "Rtti.Props.C90_reference",
    "Rtti.Props.C90_nothing",
    "Rtti.Props.C90_getter",
    "Rtti.Props.C90_refused",
    "Rtti.Props.C90_no_leak_partial",
    "Rtti.Props.C90_false"
   ],
   "note": "False: a pointer made by a converter that declines is lost (C90_false). Otherwise proved: the result is a reference to the very object (C90_reference), owns what a getter returned by value (C90_getter), or is empty (C90_nothing); refused reads with exactly what is lost (C90_refused), nothing if no converter declines (C90_no_leak_partial). Getters returning references: C82."
  },
  {
   "property": "C91",
   "status": "partial",
   "theorems": [
    "Rtti.Props.C91_at_most_one",
    "Rtti.Props.C91_exactly_one",
    "Rtti.Props.C91_answers_partial",
    "Rtti.Props.C91_later",
    "Rtti.Props.C91_wait_free",
    "Rtti.Props.C91_in_turn",
    "Rtti.Props.C91_null_late",
    "Rtti.Props.C91_view_false",
    "Rtti.Props.C91_null_false"
   ],
   "note": "For every number of threads, every interleaving and throw point: at most one query ends with the exception (C91_at_most_one), exactly one when all queries are over (C91_exactly_one, with the callback gone and the mark cleared), the callback is entered once, nobody waits (C91_wait_free), queries that do not overlap the callback answer with exactly what was defined (C91_answers_partial, C91_later, C91_in_turn). The rest is false of the code: an overlapping query sees less and is not told (C91_view_false), and a late one calls through the reset pointer (C91_null_false), which happens only after the failure (C91_null_late)."
  },
  {
   "property": "C92",
   "status": "proved",
   "theorems": [
    "Rtti.Props.C92_members",
    "Rtti.Props.C92_members_end",
    "Rtti.Props.C92_members_ends",
    "Rtti.Props.C92_attributes",
    "Rtti.Props.C92_one_moment_false"
   ],
   "note": "Members: C92_members, C92_members_end, C92_members_ends; attributes: C92_attributes. C92_one_moment_false marks the limit: the values (not the names) seen by one loop need never have been there together. Values are copied at the moment of the call; later reads through the reference are C65."
  },
  {
   "property": "C93",
   "status": "partial",
   "theorems": [
    "Rtti.Props.C93_ids",
    "Rtti.Props.C93_description",
    "Rtti.Props.C93_found",
    "Rtti.Props.C93_by_type",
    "Rtti.Props.C93_defined",
    "Rtti.Props.C93_stays",
    "Rtti.Props.C93_holds_partial",
    "Rtti.Props.C93_same_text_false",
    "Rtti.Props.C93_same_text_class_false",
    "Rtti.Props.C93_same_text_cast_false",
    "Rtti.Props.C93_own_name_false"
   ],
   "note": "False for types of the same text: one id, one description, one class, and variants of the one are taken to hold the other (C93_same_text_false, C93_same_text_class_false, C93_same_text_cast_false), and a class is not found by its own name (C93_own_name_false). Proved for every history and every assignment of non-empty texts: exactly when ids coincide (C93_ids), what is known about a type (C93_description), exactly which class find(name) finds (C93_found), agreement with find(id) (C93_by_type), a class just defined is found (C93_defined) and stays found (C93_stays). If texts tell the types of the program apart, comparing ids is comparing types (C93_holds_partial)."
  },
  {
   "property": "C94",
   "status": "proved",
   "theorems": [
    "Rtti.Props.C94_is",
    "Rtti.Props.C94_reference",
    "Rtti.Props.C94_to",
    "Rtti.Props.C94_canConvert",
    "Rtti.Props.C94_same_text_false",
    "Rtti.Props.C94_answer_false"
   ],
   "note": "Model/VariantIds.lean follows the code with ids; C94_is, C94_reference, C94_to, C94_canConvert: the same answer as Model/Value.lean gives on the types, after every history, with the classes and converters then registered. What is assumed (structure AsTypes): the ids were asked for in the history (the code asks on the way), texts tell the types in use apart, no void, classInfo() answers with ids that may be looked at; C94_same_text_false and C94_answer_false show that texts and answers are needed."
  },
  {
   "property": "C95",
   "status": "proved",
   "theorems": [
    "Rtti.Props.C95_argument",
    "Rtti.Props.C95_static",
    "Rtti.Props.C95_member",
    "Rtti.Props.C95_method",
    "Rtti.Props.C95_get",
    "Rtti.Props.C95_set",
    "Rtti.Props.C95_named",
    "Rtti.Props.C95_named_get",
    "Rtti.Props.C95_named_set",
    "Rtti.Props.C95_same_text_false"
   ],
   "note": "Model/CallIds.lean follows the code with ids; C95_argument, C95_static, C95_member, C95_method, C95_get, C95_set, C95_named, C95_named_get, C95_named_set: the same outcome as Model/Invoke.lean, after every history. What is assumed: AsTypes (C94) for every look a call can make (Fits, ArgFits, ObjFits); C95_same_text_false shows that different texts are needed."
  },
  {
   "property": "C96",
   "status": "proved",
   "theorems": [
    "Rtti.Props.C96_equal",
    "Rtti.Props.C96_eq",
    "Rtti.Props.C96_hash",
    "Rtti.Props.C96_same_text_false"
   ],
   "note": "Model/EqualIds.lean follows the code with ids; C96_equal, C96_eq, C96_hash: the same outcome as Model/Equal.lean, after every history, with the same temporaries. What is assumed (Asked): the types involved were registered, are not void, and the types in use have different texts; C96_same_text_false shows that the last is needed."
  },
  {
   "property": "C97",
   "status": "proved",
   "theorems": [
    "Rtti.Props.C97_one_function",
    "Rtti.Props.C97_declared",
    "Rtti.Props.C97_class",
    "Rtti.Props.C97_class_text",
    "Rtti.Props.C97_unique",
    "Rtti.Props.C97_hierarchy",
    "Rtti.Props.C97_meta_cast",
    "Rtti.Props.C97_same_text_false",
    "Rtti.Props.C97_name_in_use_false"
   ],
   "note": "Under texts that tell the types in use apart, as in C94. C97_same_text_false shows what happens without; C97_class_text holds for any texts. C97_name_in_use_false: the class returned by _class<T> for a name in use is not T's."
  },
  {
   "property": "C98",
   "status": "proved",
   "theorems": [
    "Rtti.Props.C98_is",
    "Rtti.Props.C98_reference",
    "Rtti.Props.C98_to"
   ],
   "note": "Under texts that tell the types in use apart, and answers of classInfo() that are ids given out, as in C94; the class asked for differs from that of the object held (the same class is C94_is)."
  },
  {
   "property": "C99",
   "status": "proved",
   "theorems": [
    "Rtti.Props.C99_member",
    "Rtti.Props.C99_get",
    "Rtti.Props.C99_set",
    "Rtti.Props.C99_runs",
    "Rtti.Props.C99_searched",
    "Rtti.Props.C99_converter_false"
   ],
   "note": "Under texts that tell the types in use apart, and answers of classInfo() that are ids given out, as in C95; the class of the function or field differs from that of the object held. For pointers C99_member, C99_get, C99_set assume that no converter to a pointer to the class is registered, as the statement says; C99_converter_false shows what happens with one."
  }
 ]
}