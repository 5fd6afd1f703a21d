# DESIGN: a Lean 4 model of elohim-meth/rtti

## Trusted base

* The Lean 4.33.0 kernel.
* Axioms: at most `propext`, `Classical.choice`, `Quot.sound`. `AXIOMS.txt` lists them for every property
  theorem (produced by `tools/axioms.txt`, i.e. `collectAxioms`, what `#print axioms` shows). No axioms of our own, no
  `sorry`, no `native_decide`/`bv_decide`. Mathlib is not imported; only Lean core and `Std` from the toolchain are used.
* The hand-written transcription from C++ to Lean. Every definition under `lean/Verif/Model` cites the file and lines
  of `/repo` it transcribes, and each model file begins with what it simplifies.
* The specifications under `lean/Verif/Spec`: they say what a property means and do not use the model's helpers (they
  share only data types such as `World` or `CType`).
* Facts about the outside that are assumed in the text of a model: the two spellings of `__PRETTY_FUNCTION__`
  (`Model/TypeName.lean`), the C++ rules on constant initialisation and destruction order of function-local statics
  (`Model/Registry.lean`), `sizeof` of a pointer is 8 (`CType.sizeOf`), the size of a variant's buffer is 16.

## Layout

* `lean/Verif/Model/*`  - executable model, function by function.
* `lean/Verif/Spec/*`   - independent specifications.
* `lean/Verif/Lemmas/*` - helper lemmas (not claims).
* `lean/Verif/Props/*`  - the property theorems, named `Cnn_...`; beside each an `example` showing a non-trivial case
  that meets its hypotheses.
* `lean/Verif/Tests/*`  - the library's own tests (`/repo/tests`) transcribed as `example`s and run on the model with the
  answers the tests demand. They check the model against what its authors observed; no theorem uses them. All test
  cases agree, including the counts of constructed and destroyed objects in `test_variant.cpp`, which only come out
  right because objects moved from inside variants are never destroyed (`C37_moved_from_false`).
* `MANIFEST.json` maps properties to theorems (generated by `tools/manifest.py` from `tools/claims.json` and the names
  in `Props`); `seeded/LOG.jsonl` logs the mutation tests.

A theorem named `..._false` proves that the code violates the property, with a concrete witness; `..._partial` is the
strongest form that holds and names the restriction in its hypotheses.

## What is modelled, where

| model file | code | properties |
|---|---|---|
| `NamedList` | `src/private/metaitem_p.h`, `src/metaitem.cpp`, `src/metaenum.cpp`: attributes, enum elements | C14, C16 |
| `ItemList` | `src/private/metacontainer_p.h`, `src/metacontainer.cpp:21-126`: member lists, `findMethod` | C15, C16, C22 |
| `World` | `src/metaclass.cpp`, `src/private/metaclass_p.h`, `src/metacontainer.cpp:203-391`, the `create` functions of all six categories | C17, C19, C20, C25-C31, C59, C86 |
| `Race` | the `create` functions as interleaved steps of any number of threads | C18, C19 |
| `QName` | `src/metaitem.cpp:47-58`: qualified names and their cache | C21 |
| `Signature` | `include/rtti/signature.h`, signatures of the invokers | C23, C24, C30 |
| `CType` | `include/rtti/misc_traits.h`, `metatype.h:454-605`, `MetaType::compatible` | C03, C05-C10 |
| `TypeTraits` | the remaining traits of `include/rtti/misc_traits.h:37-255` | C79 |
| `Registry` | `src/metatype.cpp:17-160, 222-238, 318-455`, `metatype.h:489-855`: type and converter registries with their statics and shutdown | C01-C04, C11, C12 |
| `Convert` | `metatype.h:668-710`: running a converter | C13 |
| `FlagNames`, `TypeName`, `TypeList` | `src/metatype.cpp:457-564`, `include/rtti/typename.h`, `include/rtti/typelist.h` | C53, C55, C54 |
| `Lazy` | `setDeferredDefine`, `checkDeferredDefine` and every function calling it; callbacks are programs | C32, C34, C35, C58, C61, C85 |
| `LazyRace` | `checkDeferredDefine` as interleaved steps | C33 |
| `IndexLoop` | a client's loop by index over members or attributes, interleaved with additions of other threads | C92 |
| `ClassFind` | types and classes together: ids by the text of the type, `MetaClass::find` by text and by id; converters | C93 |
| `VariantIds` | `is`, `ref`, `to`, `canConvert` through ids, as the code does them; refines `Value` | C94, C98 |
| `CallIds` | arguments, calls, properties and members by name through ids; refines `Invoke` | C95, C99 |
| `EqualIds` | `operator==`, `eq`, `std::hash` through ids, as the code does them; refines `Equal` | C96 |
| `MetaCastIds` | `meta_cast` with classes and bases found by the ids of types | C97 |
| `LazyFail` | the same with a callback that throws after some of its definitions | C91 |
| `Force` | `src/metacontainer.cpp:169-193, 262-330`: recursive forcing, enumeration by user code that uses the library | C62, C63 |
| `QNameRace` | `src/metaitem.cpp:47-58` as interleaved steps | C64 |
| `AttrRace` | `NamedVariantList::set`/`get` as interleaved steps, with the reads of the returned reference | C65 |
| `Faults` | `NamedVariantList::set`, `MetaItemList::add` and the `create` functions with failing allocations | C66 |
| `RegFaults` | `metaTypeId<T>()`, `addTypeInfo`, the converter templates and their statics, `addBaseClass` with failing allocations (`metatype.cpp:75-91, 343-354`, `metatype.h:496-529, 770-855`, `metaclass.cpp:92-121`) | C83 |
| `TypeRace` | `metaTypeId<T>()` with its guarded statics as interleaved steps | C67 |
| `FunctionTraits` | `include/rtti/function_traits.h`, `metadefine.h:70-74` | C68 |
| `ScopeGuard` | `include/rtti/finally.h` | C69 |
| `Shutdown` | `src/metanamespace.cpp:13-17`, `src/metatype.cpp:44-52, 95-102`, `private/metacontainer_p.h:65-79`: destruction of the statics | C70 |
| `WalkRace` | `src/metaclass.cpp:92-145, 181-235`, `private/metaclass_p.h`: bases declared and walked by several threads, with locks | C71 |
| `CastRace` | `src/metaclass.cpp:92-106, 123-174`, `private/metaclass_p.h:48-107`: pointers cast upwards while bases are declared, with locks | C84 |
| `ConvRace` | `metatype.h:777-800`, `src/metatype.cpp:323-455`: converters used by several threads | C72 |
| `Linked` | `metadefine.h:506-602, 935-989, 1043-1050`, `src/metamethod.cpp:17-40`, `src/metaproperty.cpp:10-32`, `src/metaconstructor.cpp:10-28`: which function a method or constructor object runs, which converter is registered | C74, C76 |
| `EachRace` | `src/private/metacontainer_p.h:28-46`, `src/metacontainer.cpp:21-72, 262-350`: lists enumerated, read and changed by several threads, with locks | C75 |
| `Errors` | the exception classes `metaerror.h:10-75` and their handlers; which exceptions the modelled operations throw is proved, not modelled | C77 |
| `Reading` | joins `VariantMem` (storage) and `Value` (readers): addresses of variants and blocks, the first word of a variant's storage `variant.h:22-26, 100-127`, assignments through references | C78 |
| `CallMem` | temporaries of calls: `variant::to<T>()`, `argument::value` with `m_dummy`, parameters by value (`variant.h:256-282`, `argument_impl.h:12-113`); references returned by calls (`metadefine.h:206-212, 394-435`) | C81, C82 |
| `CallVal` | calls that return a value, and constructors: the result variant made of the value returned (`metadefine.h:213-219, 395-435, 588-594`, `variant_impl.h:436-449`); free, member functions and constructors joined to `Arg.get` as in `CallLink` | C81 |
| `CallLink` | the two models of calls joined: what `Arg.get` binds a parameter to, as the objects of `CallMem`, for free and member functions (`metadefine.h:104-436`); types can be moved without throwing | C81 |
| `PropMem` | the temporaries of writing and reading a property: the new value and, for an instance that is a pointer, the pointer; the right operand of the assignment first; setters and getters as calls; the reference returned (`metadefine.h:649-658, 694-733, 792-805`) | C89, C90 |
| `InPlace` | `variant::convert<T>()`, `variant::tryConvert<T>()` (`variant.h:308-325`) as programs over `VariantMem` and `CallMem` | C87 |
| `Align` | alignment of types, of the buffer (`variant.h:19-26`) and of blocks (`metatype.h:226-229`) | C80 |
| `VariantMem` | `src/variant.cpp:9-88`, function tables of `variant_impl.h:52-335`, `metatype.h:221-416` | C36-C39 |
| `VariantExact` (spec only) | the same commands without memory: what each variant contains, exceptions, termination; `VariantMem` is proved to refine it for every program | C36-C39 |
| `Value` | `variant.h:127-597`: `is`, `ref`, `data`, `to`, `canConvert`, `tryConvert`, `classInfo` | C42-C44 |
| `SelfType` | `variant.h:122-123`, `src/variant.cpp:86-89`: `typeId`, `empty` | C88 |
| `Equal` | `src/variant.cpp:91-114`, `variant_impl.h:458-499, 566-580`, `compare_eq` | C40, C41, C60 |
| `Invoke` | `variant.h:630-834`, `argument_impl.h`, `metamethod_impl.h`, `metadefine.h:80-834`, `variant_impl.h:501-560` | C45-C50, C73 |
| `Builder` | `metadefine.h:836-1069`: the fluent builder, special constructors | C51, C52 |
| `MetaCast` | `include/rtti/metaclass.h:70-172` | C56 |
| `Construct` | `src/metatype.cpp:244-312`, function tables | C57 |

Proof shapes: C01-C02, C14-C19, C25-C26, C36-C39, C57, C59, C62, C85-C87 are invariants or refinements by induction over arbitrary
histories; C18, C19, C33, C91, C92, C64, C65, C67, C71, C72, C84 are invariants over arbitrary schedules; C03, C05-C10, C22-C24, C54, C55 are structural
inductions against independent definitions; C27-C29, C40-C50, C56, C60 characterise the outcome of a call completely
("succeeds exactly when ..., with this result"); C32, C58, C61 are simulations; C51 is an induction over nested chains.

Every property is expressible; none is "not applicable".

Undefined behaviour, `std::terminate`, exceptions and unbounded recursion are distinct outcomes everywhere
(`Res`, `Ret`, `VMem.Out`); reading freed or uninitialised memory, a null function table, out-of-range indices and
data races are never given a value.

## Not modelled

* the C++ compiler: overload resolution, template instantiation failures (noted in comments where code does not
  compile), object layout, name mangling;
* weak memory orders (interleavings are sequentially consistent), lock fairness, memory reclamation by other threads;
* hash-table internals (`unordered_map` is a partial map) and `std::hash` of bytes (an arbitrary function);
* allocation failure outside variants, `construct`, calls, attributes, members, types, converters and base classes (there it is
  modelled; each container operation counts as one allocation);
* what user functions do once they are called; they are parameters (constructors, converters, `==`, callbacks of
  `for_each`) that may throw;
* arrays of unknown bound, variants of functions, `std::function` copies;
* `returnTypeId`, `parametersTypeId` and `typeId` of the invokers (`metadefine.h:112-117, 172-176, ...`): the accessor `invoker()` is
  private and nothing in the library asks for them;

## Findings: where the code does not do what its user relies on

Each has a theorem with a concrete witness.

Types
* `C04_old_handle_false`: a `MetaType` obtained before shutdown reads freed memory afterwards.
  `C04_register_during_shutdown_false`: registering a converter again after its static was destroyed leaves a dangling
  entry that later conversions run.
* `C03_cv_void_false`: `void const` and `void volatile` have different decay ids.
* `C84_moment_false`, `C71_which_false`: a cast or member look-up that runs while bases are declared may give an address, or a member,
  that it would have given at no moment: an earlier base is asked before it leads to the target, a later one after. (What is always
  true: `C84_answers`, `C71_answers`; without declarations meanwhile: `C84_undisturbed`, `C71_undisturbed`.)
* `C83_converter_false`: a `registerConverter` that throws for lack of memory leaves its static converter constructed; the next call with
  that functor type succeeds and runs the function of the call that failed (`C83_answers_partial`: that is the only effect on
  converter answers). `C83_has_false`: `hasConverter<From, To>()` is `noexcept` but registers its types, so `bad_alloc` ends the
  program; `C83_exit_false`: so it does in the destructor of such a converter at exit. `C83_decay_false`: a failed `metaTypeId<T>()` may
  leave the decayed type registered, and a `TypeInfo` without a name (at most one per failed call, `C83_lost`).
  `C83_base_false`: `addBaseClass` that cannot grow the list of derived classes has already listed the base; repeating it
  repairs that (`C83_base_retry`).
* `C07_volatile_lref_false`, `C07_volatile_dropped`: `compatible` ignores `volatile`.
* `C08_false`, `C44_false`: const below an array of pointers is lost: a `char const*[2]` is handed out as `char*[2]`.
  `C44_own_array_false`: a variant made of a `char const*[2]` is from the start one of `char*[2]` (`remove_all_cv`).
* `C09_deep_exception`: at 16 levels a temporary pointer gets through a const reference into a non-const one, one step at a time, though not
  directly; otherwise transitivity holds at every depth (`C09_transitive_deep`).
* `C10_false`: comparing references to 16-fold pointers terminates the process (`bitset::test` throws in `noexcept`).
  `C10_terminates_iff` says exactly when, `C10_deep_answer` what is answered otherwise.
* `C08_answer` is the answer of `compatible` for all types of at most 16 levels: outside arrays const is never lost
  (`C08_outside_arrays`), below an array nothing is compared.
* `C08_deep_false`: from 16 levels on, const of the outer levels is ignored: a reference to a const 16-fold pointer is
  accepted as a reference to a mutable one.
* `C53_false`: the names of flags are looked up by value instead of by bit: out-of-bounds read, wrong names. `C53_types`,
  `C53_metatype_false`: the flags of every C++ type contain such a flag, so streaming any `MetaType`, valid or not, is undefined.
  (`CopyAssignable` has no entry and is never printed.)
* `C55_clang_false`: with Clang a type whose spelling contains `T =` gets a wrong name (which one: `C55_clang_exact`).
* `C54_foldr_false`, `C54_index_sequence_for_false`: `foldr` inherits from its result; the index sequence of a list with
  a single tuple is the tuple's.

Converters
* `C12_false`: registering another functor of the same type after unregistering keeps running the old one.
* `C72_own_function_false`: two threads that register two functions of one type: one is told it succeeded, the other one's
  function runs.
* `C13_false`: converters with an `ok` flag let exceptions escape, and leave an object behind when they decline.
  Member-function converters do not compile (`from->*_this.m_func()`).

Definitions
* `C19_concurrent_false`: two threads can give one type two classes.
* `C20_false`: `_class<D>("C")` with a taken name returns the class of another type without an error;
  `C52_other_class_false`: and adds the constructors of `D` to it.
* `C24_false`: a method called `operator()` is not found under its name.
* `C30_false`, `C30_false_property`: a derived class cannot define a (static) method or property its base already has.
* `C59_false_inherited`: inherited look-ups change when an earlier base gets a member later.
* `C25_self_base_diverges`, `C86_accepted`: `_base<Self>()` compiles and is accepted, as is a circle of several classes. After that
  queries recurse without end as soon as they run into the circle (`C86_inherited`, `C86_method`, ...: exactly when), and no new
  member can be defined in the class (`C86_define`).
* `C51_attribute_false`: an attribute after `_method`, `_property`, `_constructor` goes to the class.
  `C51_reuse_false`, `C51_exception_stack_false`: re-used builder objects nest wrongly; exceptions leave the stack dirty.
* `C52_reserved_false`, `C52_nonconst_copy_false`, `C52_special_types_false`: constructors given a reserved name, or taking
  `C&`, become default or copy constructors; `getConstructor<>()` never finds the default constructor.
* `C66_index_false`, `C66_duplicate_false`, `C66_class_false`: if the node of the name index cannot be allocated, the item
  is already in the list: it is enumerated but not found, and defining it again makes a second one of the same name.
  `C66_leak_false`: `emplace_back(new ...)` leaks when the vector cannot grow.
* `C68_false`: `noexcept` member functions with a ref-qualifier or `volatile`, and `std::function`, do not compile.
  `C68_functor_false`: a lambda as a method needs its closure as the instance.
* `C70_dangling_false`: if a type is used before the first definition, classes can be found by type after they were destroyed;
  `C70_walk_false`: otherwise walking to a base class uses a null pointer once the type registry is gone.
* `C69_moved_false`: a moved scope guard runs its function twice (the library itself never moves one).

Lazy definitions
* `C32_attributes_false`: `setAttribute` does not run the pending callback, which overwrites it later.
  `C32_self_install_false`: a callback that installs a lazy definition on its own container throws.
* `C33_partial_view_false`, `C33_null_call_false`, `C33_data_race_false`: concurrent first queries see half the
  definitions, call through a null pointer, and race.
* `C92_one_moment_false`: the attribute values that a loop by index collects need never have been there together (the names were,
  and so were the members: `C92_members_end`, `C92_attributes`); `for_each_attribute` holds the lock and has no such gap.
* `C93_same_text_false`, `C93_same_text_class_false`: types are told apart by their text only. Two classes `X` in unnamed namespaces
  of two files (and, with GCC, two lambdas of one signature in one function) have one id; the second is described as the first, with
  its size and functions. A variant holding the first gives a reference to the second, whose size may be larger, and `to` copies with
  the functions of the type registered first (`C93_same_text_cast_false`). The second class cannot be defined under another name
  (`duplicate_class`), and under the same name its members go into the first.
  The theorems about the registry (C01, C02, C04, C05, C67 but for `C67_description`) hold for any texts, too. The model of values
  (`Value`, `Invoke` and what is built on them) compares types where the code compares ids; that this is the same for programs whose types are told
  apart by their texts is C94 (`Model/VariantIds.lean` does it with ids; `C94_is`, `C94_reference`, `C94_to`, `C94_canConvert`; `C93_holds_partial`
  for the comparison alone). It needs different texts (`C94_same_text_false`) and that a user's `classInfo()` answers with an id that
  was given out: any other number is dereferenced (`C94_answer_false`).
  Calls, properties and members by name (`Model/Invoke.lean`) are treated in the same way in C95 (`Model/CallIds.lean`); with equal texts a member
  function of the one class runs on an object of the other (`C95_same_text_false`). Comparing and hashing (`Model/Equal.lean`) likewise in C96
  (`Model/EqualIds.lean`); with equal texts `operator==` reads an object as what it is not (`C96_same_text_false`).
  C97 says what all this is worth in terms of the calls alone: the class found for a type is the
  one `_class` of that type made (`C97_class`), and `meta_cast` goes from type to type along `_base` declarations (`C97_hierarchy`,
  `C97_meta_cast`); with equal texts it takes an object of the one type for one of the other (`C97_same_text_false`).
  The same for variants is C98: what `is` and `ref` answer for an object held, or pointed to, in terms of the declarations (`C98_is`,
  `C98_reference`). A pointer held is a pointer to any declared base for `is`, but `ref` gives access only if the base is at the same address.
  `to` makes a copy of what is there, or a pointer to it (`C98_to`). C99: a member function runs only on what is at the address along
  the declarations (`C99_member`), and does run if there are any (`C99_runs`); fields likewise (`C99_get`, `C99_set`). By name, members are
  looked for in the class that was defined for the type the object says it is of (`C99_searched`).
  With a converter between pointers to classes, member functions run on what the converter makes, declared or not (`C99_converter_false`).
* `C97_name_in_use_false`: `_class<T>("name")` for a name that a class of another type has gives that class; what is then declared for `T` is
  declared for the other type, and `T` has no class.
* `C93_own_name_false`: `MetaClass::find(name)` takes the text of the type, not the name the class was defined under.
* `C91_view_false`, `C91_null_false`: when the callback throws, a query that found it in progress answers with less than
  what was defined and is not told; a query between the test and the exchange calls through the null pointer. Later
  queries never learn that the definition failed (`C91_later`).
* `C62_false`: recursive forcing misses definitions that callbacks install on containers already visited, and only those
  (`C62_earlier_run`).
  `C62_deadlock_false`, `C63_deadlock_false`: a callback (or a function enumerating classes) that defines a class in the
  list being walked deadlocks: `for_each` holds the list's lock while it calls out.
* `C58_foreign_callback_false`: members a callback adds to a base already searched are missed; nothing else is (`C58_method_any`). `C85_missed_false`: so a class can get
  its own method although a base class has it, which it would not get without deferral. That is the only state deferral adds
  (constructor `missed` of `Reachable`); all theorems about `Reachable` states hold for programs with callbacks (`C85_reachable`).

Several threads
* `C64_data_race_false`: `qualifiedName` writes its cache without a lock; the names of two different items race on the
  cache of the global namespace, which is written by every first name (`C64_global_always_written_false`).
* `C75_recursive_false`: a function that looks something up in the list being enumerated waits forever if another thread
  waits to add to this list and the platform lets waiting writers go first. `C75_crossed_false`: two threads that enumerate
  one list each and add to the other's wait for each other. (`C75_no_deadlock_partial`: all is well if functions only use
  lists further down; `C75_readers_first_partial`: or only read, and readers go first.)
* `C65_data_race_false`: `attribute(name)` returns a reference to a variant that `setAttribute` assigns to later.

Variants
* `C36_array_of_objects_false`, `C57_array_copy_false`: arrays of non-trivial elements are assigned into raw memory.
* `C36_reads_raw_storage_false`: a move reads uninitialised storage (exactly which operations: `C36_reads_only`, `C36_reads_move`).
* `C37_moved_from_false`, `C37_swap_false`: moved-from objects in the buffer are never destroyed.
* `C38_self_swap_false`: self-swap constructs an object from itself. `C36_undefined_iff` shows that this and storing an
  array of class objects (`C36_array_of_objects_false`) are the only two ways to undefined behaviour with variants.
* `C37_balance`: exactly one object is never destroyed for every move out of a variant's own storage, no more and no
  fewer; `C36_leak_iff`: exactly the blocks allocated by commands that threw afterwards are lost.
* `C39_block_lost_false`, `C39_out_of_memory_terminates_false`: a throwing copy loses the block; `bad_alloc` terminates.
* `C40_asymmetric_false`, `C40_pointer_array_false`: `==` is not symmetric for `char const*`/`char*` and arrays of
  different length, and undefined for a pointer against an array.
* `C40_array_terminate_false`: comparing variants that hold arrays ends the program where the elements' `==` throws or is
  missing: the comparison is `noexcept` if `==` of two arrays is, and that compares pointers. Exactly when:
  `C40_terminate_iff`.
* `C40_deep_terminate_false`: comparing two variants that hold pointers of 16 levels or more may end the program, since the
  masks have 16 bits (C10); every outcome for such types: `C40_deep`.
* `C44_deep_false`: a variant that refers to a const pointer of 16 levels hands out a reference through which it can be
  changed.
* `C79_class_pointer_false`, `C79_comparable_false`, `C79_copyable_false`: a pointer to an array of class objects is described as a
  pointer to a class object, an array of incomparable elements as comparable, a pointer to a class that cannot be copied as not
  copyable.
* `C80_false`: `is_inplace` looks at the size of a type and not at its alignment: a `long double` (or `__int128`) is kept in a
  buffer aligned to 8. Exactly the types of size and alignment 16 are affected, and over-aligned types on the heap (`C80_exact`,
  `C80_which`).
* `C89_false`, `C90_false`: writing or reading a property loses the object a converter made that then declined (nothing else, but for setters:
  `C89_refused`, `C89_no_leak_partial`, `C90_refused`).
* `C81_declined_false`, `C81_dummy_false`, `C81_block_false`: temporaries of calls that are never destroyed: what a converter
  constructed before it declined; one object for every converted argument of a small non-trivial type bound to a const or rvalue
  reference (`m_dummy = value->to<T>()` swaps, and swapping forgets what was moved from); the block of a large one whose move
  throws. These are all (`C81_exact`, `C81_no_leak_partial`), but for
  the block of a large result returned by value whose move throws (`C81_result_block_false`, `C81_result`), even when memory runs out; but then a move constructor that may not
  throw terminates the program, because the allocation is behind its `noexcept` (as in C39).
* `C88_array_false`: a variant made from an array of `char const *` says it held `char *`s (`typeId()`); `remove_all_cv_t` removes const
  behind the pointers as well.
* `C87_leaves_objects_false`, `C87_declined_false`, `C87_loses_block_false`, `C87_ends_program_false`: converting a variant in place leaves objects that are never
  destroyed (the moved-from value when types live in the buffer, what a converter made before declining), and `tryConvert` ends the
  program when a move inside `swap` throws. What it contains and answers otherwise is exact (`C87_exact`), as is the number of objects
  left (`C87_balance`, `C87_destroyed_iff`) and the blocks lost by moves that throw (`C87_leak_iff`, `C87_freed_iff`).
* `C82_own_object_false`: a reference that a called function returns to a parameter dangles when the argument was converted, like a
  temporary in C++, but the variant returned outlives it (`C82_direct_partial`: references to parameters bound directly stay good).
* `std::hash<mpl::ID>` (`tagged_id.h:64`) passes the value to a constructor of `std::hash<Type>`; it cannot be instantiated. Nothing
  instantiates it, so it is not modelled.
* `C41_representation_false`, `C41_length_false`: equal variants may have different hashes.
* `C42_null_object_false`: a null pointer to a class with `classInfo()` is dereferenced (exactly when: `C42_reference_exact`,
  `C42_is_exact`, `C43_to_exact`). `C42_pointer_alias`: `ref<B*>()` on a
  `D*` hands out the pointer itself. `C44_rref_moves_referred`: `rref` on a `std::ref` variant moves from an lvalue.
* `C43_canConvert_promises_nothing`: `canConvert` may be true though `to` throws.
* `C60_leak_false`, `C60_array_false`: `eq` leaks a declined temporary and overflows the buffer for arrays.
* `C57_leak_false`, `C57_array_leak_false`, `C57_uninitialised_false`, `C57_handles_false`: `construct` leaks when a
  constructor throws, leaves trivial types uninitialised, and dereferences a null table for `void`.
* `C56_macro_false`, `C56_unregistered_false`: `meta_cast` is wrong for classes without `DECLARE_CLASSINFO` or without
  registration.

Calls
* `C46_reference_wrapper_false`: `std::ref(x)` as an argument is treated as an rvalue of `x`.
* `C47_false`: `f(1, {}, 2)` calls a function of one parameter. `C47_ten_parameters_false`: a member function of ten parameters
  can be defined but not called. A static function without parameters needs `invoke(argument{})` (`C47_no_parameters`).
* `C48_converter_false`: a registered pointer converter strips const from the instance.
* `C49_getter_false`: what a getter returns by reference is writable. `C49_temporary_false`: `get(object)` gives a reference into a
  temporary copy of the object.
* `C50_false`, `C50_silent`: calls on something that is no object silently do nothing.
* `C73_static_by_name_false`: `v.invoke("s", 5)` for a registered `static void s(int)` is refused: static functions get the
  variant itself as their first argument.
* `C74_false`, `C74_dropped`: a registration whose signature the class has or inherits already is dropped silently: a static
  `f(B&)` beside the member `B::f()` (one signature), and a static function that hides one of a base class.
* `C76_const_false`: a constructor taking `int*` converts an `int const*`: const is dropped.
  `C76_derived_false`: a constructor taking `B const&` does not convert an object of a class derived from `B`.
* `C77_to_false`: converting to a type that cannot be copied, and passing such a type by value, throws a plain
  `rtti::runtime_error` which `catch (rtti::bad_cast const &)` misses, although `is` says yes and `ref` works.
