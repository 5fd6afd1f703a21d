{"id": "C01", "title": "Type identity is stable and unique", "statement": "Registering types in any order and any number of times yields ids such that registering or looking up the same (non-empty) type name always yields the same id, two different names never share an id, a name that was never registered is not found, and an id handed out once stays valid and keeps meaning the same type for the rest of the program.", "quantifier": "every finite history of registrations and look-ups, every name", "why_tests_cant": "A test replays a handful of type names; the claim is about every interleaving of first and repeated registrations over the process lifetime.", "anchors": ["src/metatype.cpp: CustomTypes::addTypeInfo, CustomTypes::getTypeInfo, MetaType::registerMetaType, MetaType::MetaType"]}
{"id": "C02", "title": "The first description of a type wins and never changes", "statement": "Once a type name is registered, the size, decay id, pointer arity, const mask and flags reported for its id are those of the first registration, whatever is registered later (including the same name with another description).", "quantifier": "every history, every registered id", "why_tests_cant": "The claim is an invariant over unbounded histories, including conflicting re-registrations that no test enumerates.", "anchors": ["src/metatype.cpp: CustomTypes::addTypeInfo", "src/private/metatype_p.h: TypeInfo"]}
{"id": "C03", "title": "Decay ids identify a type up to references, cv-qualifiers and array-to-pointer", "statement": "For every C++ type built from scalars/classes with pointers, arrays, const, volatile and references, the decay type is a fixed point of decaying, the type is 'decayed' exactly when it equals its own decay, and two types report the same decay id exactly when stripping the reference, turning an outer array into a pointer and erasing cv at every level gives the same type.", "quantifier": "every type of the grammar, every pair of types", "why_tests_cant": "There are infinitely many types; tests instantiate a few dozen.", "anchors": ["include/rtti/misc_traits.h: full_decay_t, remove_all_cv", "include/rtti/metatype.h: internal::meta_type, MetaType::decayed", "src/private/metatype_p.h: TypeInfo"]}
{"id": "C04", "title": "Unknown, empty and after-shutdown queries are harmless", "statement": "Looking up an empty or unknown name gives an invalid type; every observer of an invalid type returns the documented neutral answer (name \"void\", size 0, arity 0, flag Void, no class, decay id 0, not compatible with anything, no converter); after the registry is destroyed, look-ups, registrations and conversions answer 'invalid'/false and never touch freed entries.", "quantifier": "every history followed by shutdown, every name and id", "why_tests_cant": "Shutdown order is not observable in a unit test and the quantification is over all names and histories.", "anchors": ["src/metatype.cpp: customTypes, CustomTypes::~CustomTypes, MetaType::typeName, MetaType::typeSize, MetaType::typeFlags, MetaType::compatible, MetaType::hasConverter, customConverters"]}
{"id": "C05", "title": "Pointer arity and const mask describe the type exactly", "statement": "For every type, the recorded pointer arity equals the number of outer pointer levels of the type without its reference, and bit k of the recorded const mask is set exactly when the k-th level (counting the pointee as level 0) is const-qualified; decaying clears the whole mask and keeps the arity (plus one for an array).", "quantifier": "every type of the grammar with fewer than 16 pointer levels, every bit position", "why_tests_cant": "Infinite family of types; also shows where the 16-bit mask silently loses information.", "anchors": ["include/rtti/misc_traits.h: pointer_arity, const_bitset, internal::const_bitset_helper", "include/rtti/metatype.h: internal::meta_type"]}
{"id": "C06", "title": "Type kind predicates are mutually consistent", "statement": "For every type: isClass, isClassPtr, isArray of the same type are pairwise exclusive except class arrays; isPointer iff arity > 0; isClassPtr and isFunctionPtr imply isPointer and arity 1; isReference iff exactly one of lvalue/rvalue; the predicates of a reference type agree with those of the referred type; isConst of T says whether the outermost level of T (ignoring the reference) is const.", "quantifier": "every type of the grammar", "why_tests_cant": "Infinitely many types; the predicates are computed from bit tests over independently computed flags.", "anchors": ["include/rtti/metatype.h: internal::type_flags, MetaType::isClass, MetaType::isPointer, MetaType::isClassPtr, MetaType::isArray, MetaType::isReference"]}
{"id": "C07", "title": "Pointer compatibility is exactly C++ qualification conversion", "statement": "For two types that differ only in const-qualification and reference kind and contain no arrays, MetaType::compatible answers true exactly when C++ would allow the value/reference of the first type to initialise a parameter of the second type: no const is ever dropped, const added at an inner pointer level requires const at every level outside it, top-level const of a by-value target is ignored, a non-const lvalue reference does not bind to a non-lvalue and an rvalue reference does not bind to an lvalue.", "quantifier": "every pointer depth, every const pattern, every pair of reference kinds", "why_tests_cant": "Exponentially many const patterns per depth and unbounded depth.", "anchors": ["src/metatype.cpp: MetaType::compatible"]}
{"id": "C08", "title": "Compatibility never lets const be stripped", "statement": "If MetaType::compatible(from, to) holds for two types with the same decay and the target is a reference or pointer, then no part of the object that is const through the source type is writable through the target type.", "quantifier": "every pair of types of the grammar, including arrays and pointers to arrays", "why_tests_cant": "Needs all shapes of nested pointers and arrays; the failing shape (array of pointers to const) is not in the tests.", "anchors": ["src/metatype.cpp: MetaType::compatible", "include/rtti/misc_traits.h: const_bitset"]}
{"id": "C09", "title": "Compatibility is reflexive, and transitive between non-reference targets", "statement": "compatible(T,T) holds for every valid T; for types of one decay, compatible(A,B) and compatible(B,C) imply compatible(A,C) as long as no step turns a reference/array into a value (a copy); in general it is not transitive (const X& -> X -> X&&). The one exception is at 16 and more pointer levels: a temporary that is not itself accepted by a non-const lvalue reference gets there through a const one. For types of different decays it is not transitive.", "quantifier": "every triple of registered types", "why_tests_cant": "Universally quantified relational law.", "anchors": ["src/metatype.cpp: MetaType::compatible"]}
{"id": "C10", "title": "Asking whether two types are compatible always terminates normally", "statement": "MetaType::compatible returns a Boolean for any two types and never aborts the process.", "quantifier": "every pair of registered types of any pointer depth", "why_tests_cant": "It is declared noexcept, so an out-of-range bitset access in it is a process abort; only extremely deep pointers reach it.", "anchors": ["src/metatype.cpp: MetaType::compatible", "src/private/metatype_p.h: TypeInfo::const_bitset_t"]}
{"id": "C11", "title": "The converter registry behaves as a map from decayed type pairs, first registration wins", "statement": "After any history of register/unregister/query/convert calls: a converter is reported for (From,To) exactly when some registration for a pair with the same decayed types succeeded and was not unregistered afterwards; registration returns true exactly when none was present; conversion runs the function of the registration that succeeded; pairs with other decayed types are unaffected.", "quantifier": "every history over any types and functions", "why_tests_cant": "Refinement over unbounded histories.", "anchors": ["src/metatype.cpp: MetaTypeFunctionList, MetaType::hasConverter, MetaType::registerConverter, MetaType::convert, MetaType::unregisterConverter"]}
{"id": "C12", "title": "Re-registering a converter after unregistering it installs the new function", "statement": "After unregisterConverter<From,To>() a following successful registerConverter<From,To>(g) makes conversions run g.", "quantifier": "every register/unregister/register history", "why_tests_cant": "Requires histories that unregister and re-register with another function of the same C++ type; tests never unregister.", "anchors": ["include/rtti/metatype.h: MetaType::registerConverter_imp, MetaType::unregisterConverter"]}
{"id": "C13", "title": "Failed conversions report failure and leave no half-built object behind", "statement": "When a conversion function fails (throws, or reports ok=false) the conversion reports failure rather than a value, the exception does not escape, and the target buffer does not hold a constructed object.", "quantifier": "every converter kind, every outcome of the user function", "why_tests_cant": "Requires all user functions and all failure modes.", "anchors": ["include/rtti/metatype.h: internal::ConvertFunctor::convert, internal::ConvertFunctorOk::convert, internal::ConvertMethod::convert, internal::ConvertMethodOk::convert", "include/rtti/variant.h: variant::metafunc_to"]}
{"id": "C14", "title": "Attributes and enum elements behave as an insertion-ordered map with last write winning", "statement": "After any sequence of attribute (or enum element) definitions: the count is the number of distinct non-empty names; a name maps to the last value defined for it, an undefined or empty name to the empty variant; position i holds the i-th distinct name in order of first definition with its last value; redefinition never changes positions; out-of-range positions give the empty variant and empty name.", "quantifier": "every sequence of definitions, every name and every index", "why_tests_cant": "Refinement of two redundant structures (vector and hash index) over unbounded histories.", "anchors": ["src/private/metaitem_p.h: NamedVariantList::set, NamedVariantList::for_each", "src/metaitem.cpp: NamedVariantList::get, NamedVariantList::name, MetaItem::attribute", "src/metaenum.cpp: MetaEnum::addElement, MetaEnum::element"]}
{"id": "C15", "title": "Container members are found consistently by name and by index", "statement": "After any sequence of successful or refused additions to a container: names within a category are unique, an addition is refused exactly when the object or its name is already present, look-up by a non-empty name and look-up by index agree, indices follow registration order, are dense from 0 to count-1, and an item once present stays at its index forever; categories do not interfere.", "quantifier": "every history of additions, every name, index and category", "why_tests_cant": "Invariant over unbounded histories, linking vector and hash index.", "anchors": ["src/metacontainer.cpp: MetaItemList::add, MetaItemList::get, MetaContainerPrivate::addItem, MetaContainer::item, MetaContainer::count", "src/private/metacontainer_p.h: MetaContainerPrivate"]}
{"id": "C16", "title": "Enumeration visits members in order, each once, up to the first refusal", "statement": "for_each_class/for_each_method/for_each_attribute/for_each_element call the callback on exactly the members in index order, each exactly once, stopping after the first call that returns false; an empty callback visits nothing.", "quantifier": "every container content and every callback", "why_tests_cant": "Quantifies over all stateful callbacks.", "anchors": ["src/private/metacontainer_p.h: MetaItemList::for_each", "src/private/metaitem_p.h: NamedVariantList::for_each", "src/metacontainer.cpp: MetaContainer::for_each_class", "src/metaitem.cpp: MetaItem::for_each_attribute"]}
{"id": "C17", "title": "Defining something twice yields the same object", "statement": "Defining a namespace, class, enum, property, method or constructor whose name (signature) already exists in the container returns the existing object and changes nothing; otherwise the returned object is new, is what look-up then returns, and the count grows by one; never is null returned for a non-empty name.", "quantifier": "every container state, every name", "why_tests_cant": "All reachable container states.", "anchors": ["src/metanamespace.cpp: MetaNamespace::create", "src/metaenum.cpp: MetaEnum::create", "src/metaclass.cpp: MetaClass::create", "src/metaproperty.cpp: MetaProperty::create", "src/metamethod.cpp: MetaMethod::create", "src/metaconstructor.cpp: MetaConstructor::create"]}
{"id": "C18", "title": "Concurrent definitions of the same name agree", "statement": "If any number of threads define (get-or-create) items in one container concurrently, then under every interleaving every thread defining name n gets the same object, that object is the one later look-ups return, every losing duplicate is deleted, nothing is leaked and names stay unique.", "quantifier": "every number of threads, every assignment of names, every interleaving of their atomic steps", "why_tests_cant": "Interleavings cannot be enumerated by tests.", "anchors": ["src/metanamespace.cpp: MetaNamespace::create", "src/metaenum.cpp: MetaEnum::create", "src/metacontainer.cpp: MetaItemList::add, MetaItemList::get"]}
{"id": "C19", "title": "A C++ type is described by at most one class, and class look-up by type finds it", "statement": "After any history of class definitions, a type has at most one registered class; MetaClass::find(type) returns it; a second definition of the type under another name throws duplicate_metaclass and changes nothing; an invalid type id throws invalid_metatype_id and changes nothing. This must also hold when threads define classes concurrently.", "quantifier": "every history; every interleaving of concurrent definitions", "why_tests_cant": "Includes a check-then-act window that only shows under a specific interleaving.", "anchors": ["src/metaclass.cpp: MetaClass::create, MetaClass::find", "src/private/metatype_p.h: TypeInfo::metaClass"]}
{"id": "C20", "title": "Defining class C under a name returns the description of C", "statement": "When _class<C>(name) succeeds, the class object returned describes the type C (its metaTypeId is the id of C).", "quantifier": "every container state, every name, every type", "why_tests_cant": "Needs a name collision between different types in the same container.", "anchors": ["src/metaclass.cpp: MetaClass::create", "include/rtti/metadefine.h: meta_define::_class"]}
{"id": "C21", "title": "Qualified names spell the path from the global namespace and identify the item", "statement": "The qualified name of every item is the concatenation of \"::\" and the name for each step of the path from (excluding) the global namespace; the global namespace has the empty qualified name; the value is the same on every call; two items of the same category with different paths have different qualified names provided no component contains ':'.", "quantifier": "every tree shape and depth, every names", "why_tests_cant": "Unbounded nesting and all strings.", "anchors": ["src/metaitem.cpp: MetaItemPrivate::makeQualifiedName, MetaItemPrivate::qualifiedName"]}
{"id": "C22", "title": "Method look-up by full signature is exact and by short name picks the first overload", "statement": "In a container, getMethod(q) returns the first-registered method whose full signature equals q or whose part before the first '(' equals q; in particular a query containing '(' returns exactly the method with that signature, a query without '(' returns the earliest registered overload of that name, and null is returned exactly when there is none.", "quantifier": "every list of registered signatures, every query string", "why_tests_cant": "All strings; relies on index arithmetic in the compare calls.", "anchors": ["src/metacontainer.cpp: MetaContainerPrivate::findMethod, MetaContainer::getMethod, MetaContainer::getConstructor"]}
{"id": "C23", "title": "Signatures distinguish overloads", "statement": "The signature text of (name, parameter types) determines the name and the list of parameter type names: two different overloads never get the same signature, provided the function name has no '(' and each type name is bracket-balanced with no top-level comma.", "quantifier": "every name and every list of parameter type names", "why_tests_cant": "Injectivity over all strings, including type names that contain commas and parentheses.", "anchors": ["include/rtti/signature.h: signature::get, prefix_ostream_iterator"]}
{"id": "C24", "title": "A registered method can be found again by the name it was registered under", "statement": "After _method(name, f) in a container with no earlier method of that name, getMethod(name) returns that method.", "quantifier": "every name, every parameter list", "why_tests_cant": "Needs names containing '(' such as operator().", "anchors": ["src/metacontainer.cpp: MetaContainerPrivate::findMethod", "src/metamethod.cpp: MetaMethod::create"]}
{"id": "C25", "title": "inheritedFrom is exactly reachability over declared bases", "statement": "For any registered hierarchy, D.inheritedFrom(B) holds exactly when B is D or is reachable from D through declared base classes; it always terminates; null is inherited by nobody.", "quantifier": "every history of base declarations consistent with a C++ hierarchy, every pair of classes", "why_tests_cant": "All graphs, including diamonds and arbitrary depth.", "anchors": ["src/metaclass.cpp: MetaClass::inheritedFrom, MetaClass::addBaseClass"]}
{"id": "C26", "title": "Base and derived lists mirror each other", "statement": "After any history: B appears among the bases of D exactly when D appears among the derived classes of B; each appears once; the order is the order of first declaration; every listed base is a registered class; out-of-range indices give null; repeated declarations change nothing and keep the first cast function.", "quantifier": "every history of class and base declarations", "why_tests_cant": "Global invariant across two lists in different objects.", "anchors": ["src/metaclass.cpp: MetaClass::addBaseClass, MetaClass::addDerivedClass, MetaClass::baseClass, MetaClass::derivedClass", "src/private/metaclass_p.h: BaseClassList::add, DerivedClassList::add"]}
{"id": "C27", "title": "Upcasts succeed exactly for ancestors and apply the casts along a declared path", "statement": "Casting an instance of D to B yields null exactly when B is null or not D/ancestor of D (for cast functions that keep non-null); casting to D itself is the identity; otherwise the result is the composition of the declared cast functions along a path of declared bases from D to B, the path that takes at every step the earliest declared base that leads to B.", "quantifier": "every hierarchy, every instance pointer, every pair", "why_tests_cant": "All graphs and pointer values.", "anchors": ["src/metaclass.cpp: MetaClass::cast"]}
{"id": "C28", "title": "Upcasts do not depend on the route or on declaration order when the subobject is unique", "statement": "If every two declared paths from D to B give the same address (virtual or single inheritance), the cast result equals that address, casting in two steps D->M->B equals casting directly, and permuting base declarations does not change it; when D has two distinct B subobjects (non-virtual diamond) the first declared one is silently chosen.", "quantifier": "every hierarchy, every family of cast functions", "why_tests_cant": "All graphs and declaration orders.", "anchors": ["src/metaclass.cpp: MetaClass::cast", "include/rtti/metadefine.h: internal::metacast_to_base"]}
{"id": "C29", "title": "Inherited members are found, own members first", "statement": "getMethod/getProperty on a class returns its own member if it has one; otherwise it finds a member exactly when some ancestor has one, and returns the one from the depth-first, declaration-order first ancestor; constructors are never inherited.", "quantifier": "every hierarchy, every member name", "why_tests_cant": "All graphs.", "anchors": ["src/metaclass.cpp: MetaClass::getMethodInternal, MetaClass::getPropertyInternal", "src/metacontainer.cpp: MetaContainer::getMethod, MetaContainer::getConstructor"]}
{"id": "C30", "title": "A derived class can define its own member that a base also has", "statement": "Registering a method (same signature) or property (same name) on a derived class makes the derived class own it, so that look-up on the derived class yields the derived one (overriding/hiding as in C++).", "quantifier": "every hierarchy, every member name", "why_tests_cant": "Needs an override registered after its base; tests have none.", "anchors": ["src/metaproperty.cpp: MetaProperty::create", "src/metamethod.cpp: MetaMethod::create", "src/metaclass.cpp: MetaClass::getPropertyInternal"]}
{"id": "C31", "title": "Refused base declarations change nothing", "statement": "Declaring as base an invalid type throws invalid_metatype_id, declaring a type without registered class throws unregistered_metaclass, and in both cases no base or derived list of any class changes.", "quantifier": "every registry state", "why_tests_cant": "All states.", "anchors": ["src/metaclass.cpp: MetaClass::addBaseClass"]}
{"id": "C32", "title": "A lazy definition runs exactly once, before the first look-up, and is transparent", "statement": "In a single thread, for any definition callback (which may itself query the container) and any sequence of queries, the callback runs exactly once, at the first query; from then on every query answers as if the definitions had been made eagerly; queries made from inside the callback do not run it again.", "quantifier": "every callback body (any nesting of definitions and queries), every query sequence", "why_tests_cant": "All callbacks and query sequences.", "anchors": ["src/metacontainer.cpp: MetaContainer::checkDeferredDefine, MetaContainer::setDeferredDefine"]}
{"id": "C33", "title": "Concurrent first look-ups of a lazy container are safe", "statement": "Under every interleaving of threads querying a lazily defined container, the callback is invoked at most once, never after it was released, and every query sees all of its definitions.", "quantifier": "every number of threads, every interleaving", "why_tests_cant": "Race windows between the null check, the flag exchange and the reset.", "anchors": ["src/metacontainer.cpp: MetaContainer::checkDeferredDefine"]}
{"id": "C34", "title": "A failing lazy definition does not wedge the container", "statement": "If the callback throws, the exception reaches the caller of the query, the in-progress mark is cleared, later queries work (on whatever was defined before the throw), a new lazy definition can be installed, and the failed callback is not run again.", "quantifier": "every callback and every throw point", "why_tests_cant": "All throw points.", "anchors": ["src/metacontainer.cpp: MetaContainer::checkDeferredDefine", "include/rtti/finally.h: scope_guard"]}
{"id": "C35", "title": "At most one pending lazy definition", "statement": "Installing a lazy definition while another is pending throws definition_error and keeps the first; after the first ran another can be installed, and each installed definition runs at most once, in installation order.", "quantifier": "every history of installs and queries", "why_tests_cant": "Unbounded histories.", "anchors": ["src/metacontainer.cpp: MetaContainer::setDeferredDefine", "include/rtti/metadefine.h: meta_define::_lazy"]}
{"id": "C36", "title": "Heap storage of variants is never leaked, shared or freed twice", "statement": "For any sequence of variant construction, copy, move, assignment, swap, clear and destruction (self-assignment included), every heap block is owned by exactly one live variant, is freed exactly once when its owner is cleared/destroyed, and after all variants are destroyed no block remains; empty variants own nothing.", "quantifier": "every operation sequence over any number of variants of any stored kinds", "why_tests_cant": "Ownership invariant over unbounded histories.", "anchors": ["src/variant.cpp: variant::variant, variant::operator=, variant::swap, variant::clear", "include/rtti/detail/variant_impl.h: variant_function_table_impl"]}
{"id": "C37", "title": "Every object created by variants is destroyed exactly once", "statement": "Over any sequence of variant operations, each stored object that is constructed is destroyed exactly once and no object is destroyed that was not constructed, so constructor and destructor calls balance once all variants are gone.", "quantifier": "every operation sequence, every stored type", "why_tests_cant": "The imbalance depends on storage kind and on the sequence of moves; the tests count destructors only in a few sequences.", "anchors": ["src/variant.cpp: variant::swap", "include/rtti/detail/variant_impl.h: variant_function_table_impl<T,true,false>::move"]}
{"id": "C38", "title": "Copy, move, assignment and swap have value semantics", "statement": "Copying gives a variant with the same type and equal value and leaves the source unchanged; moving transfers type and value and leaves the source empty; assignment makes the target what a copy/move would be and does not affect other variants; self-assignment changes nothing; swap exchanges the contents and is its own inverse; clear gives an empty variant.", "quantifier": "every pair of variants of any stored kinds", "why_tests_cant": "All nine storage-kind combinations times all values; refinement to plain values.", "anchors": ["src/variant.cpp: variant::swap, variant::operator=", "include/rtti/detail/variant_impl.h: variant_function_table_impl"]}
{"id": "C39", "title": "Assignment that throws leaves the target unchanged", "statement": "If copying the stored object throws during copy-construction or assignment, the target of the assignment keeps its value, no object is half-constructed and no memory is lost.", "quantifier": "every state, every throw point", "why_tests_cant": "All throw points; the leak only shows with a throwing copy constructor of a large type.", "anchors": ["src/variant.cpp: variant::operator=", "include/rtti/detail/variant_impl.h: variant_function_table_impl<T,false,false>::copy"]}
{"id": "C40", "title": "Variant equality is an equivalence compatible with the stored values", "statement": "== is reflexive and symmetric and transitive on variants whose stored types compare that way; empty equals only empty; variants of different decayed types are unequal; equality of same-type variants is equality of the stored values.", "quantifier": "every triple of variants", "why_tests_cant": "Relational law; asymmetry needs arrays of different lengths or pointers differing in const.", "anchors": ["src/variant.cpp: variant::operator==", "src/metatype.cpp: MetaType::compatible"]}
{"id": "C41", "title": "Equal variants have equal hashes", "statement": "If two variants compare equal then std::hash gives the same value, so variants can be keys of unordered containers.", "quantifier": "every pair of variants", "why_tests_cant": "The violation needs two objects equal by operator== with different bytes.", "anchors": ["include/rtti/detail/variant_impl.h: std::hash<rtti::variant>", "src/variant.cpp: variant::operator=="]}
{"id": "C42", "title": "is<T>, data<T> and ref<T> agree", "statement": "On any variant and type T: ref<T> throws bad_variant_cast exactly when data<T> returns null; is<T&> is true whenever data<T> is non-null; data<T> of an exact type match returns the address of the stored (or referenced) object itself, and for base classes the address of the base subobject.", "quantifier": "every variant content, every target type, every class hierarchy", "why_tests_cant": "All types, hierarchies and storage kinds.", "anchors": ["include/rtti/variant.h: variant::metafunc_is, variant::metafunc_cast, variant::ref, variant::data, variant::is"]}
{"id": "C43", "title": "to<T>, canConvert<T> and tryConvert<T> agree", "statement": "to<T> succeeds exactly by one of: exact/compatible type copy, class upcast, registered converter (in this order), and otherwise throws bad_variant_convert; if canConvert<T> is false, to<T> throws; a failing tryConvert leaves the variant unchanged.", "quantifier": "every variant content, target type, converter registry, hierarchy", "why_tests_cant": "All registries and hierarchies.", "anchors": ["include/rtti/variant.h: variant::metafunc_to, variant::canConvert, variant::tryConvert, variant::convert"]}
{"id": "C44", "title": "A variant never hands out a writable reference to a const object", "statement": "If the variant is accessed as const, or holds a const reference, then ref<T>/data<T>/rref<T> with non-const class or scalar T fails, and every reference obtained is to const; a by-value variant accessed as non-const gives a writable reference.", "quantifier": "every variant content, every target type without arrays of pointers", "why_tests_cant": "All const patterns.", "anchors": ["include/rtti/variant.h: variant::ref, variant::cref, variant::rref, variant::data", "src/metatype.cpp: MetaType::compatible"]}
{"id": "C45", "title": "Dynamic member access reports precise errors", "statement": "variant.invoke/get_property/set_property by name succeed only if the variant holds a class or class pointer, whose (dynamic) class is registered and has, itself or inherited, such a member; otherwise runtime_error is thrown and nothing is modified; the member used is the one of the dynamic class.", "quantifier": "every variant content, every name, every registry", "why_tests_cant": "All registries.", "anchors": ["include/rtti/detail/variant_impl.h: variant::invoke, variant::set_property", "src/variant.cpp: variant::get_property"]}
{"id": "C46", "title": "Arguments bind to parameters by value category", "statement": "An argument made from an lvalue never binds to T&&; one made from an rvalue never binds to T&; T& binds without conversion to the caller's own object only; T const& and T bind with copy, upcast or registered conversion; missing arguments throw bad_argument_cast; a const object never binds to T&; when T const& binds without conversion it refers to the caller's object.", "quantifier": "every argument kind, every parameter kind, every type relation", "why_tests_cant": "Product of argument and parameter kinds with all types.", "anchors": ["include/rtti/detail/argument_impl.h: argument::value", "include/rtti/variant.h: argument"]}
{"id": "C47", "title": "Calls with the wrong number of arguments are rejected", "statement": "Invoking a method or constructor of n parameters (n at most 10) succeeds in passing the argument-count check exactly when exactly n non-missing arguments were supplied; otherwise invoke_error is thrown before the function runs.", "quantifier": "every n and every argument list up to ten", "why_tests_cant": "Counting with unsigned wrap-around; all argument shapes including gaps.", "anchors": ["include/rtti/metadefine.h: internal::pack_arguments"]}
{"id": "C48", "title": "Reflection calls respect const", "statement": "A non-const member function is never run on an object reached only as const (const variant holding the object, reference to const, pointer to const); a const member function may be run on either; the object the function runs on is the stored/referenced object, adjusted to the class that declares the method.", "quantifier": "every instance kind, every method kind, every hierarchy", "why_tests_cant": "All combinations.", "anchors": ["include/rtti/metadefine.h: internal::method_invoker::invoke_imp"]}
{"id": "C49", "title": "Properties: read-only is enforced, set then get returns the value", "statement": "Setting a const property throws invoke_error and modifies nothing; setting a property changes only that member of that instance, and a following get returns the value set; static/instance misuse throws invoke_error; setting through a const variant holding the object throws; get never yields a writable reference.", "quantifier": "every property kind, instance kind and value", "why_tests_cant": "All combinations and all object states.", "anchors": ["include/rtti/metadefine.h: internal::property_invoker, internal::PropertyInvoker", "include/rtti/variant.h: MetaProperty::get_impl, MetaProperty::set_impl"]}
{"id": "C50", "title": "Calling a member on something that is not an object is an error", "statement": "Invoking an instance method or getting/setting an instance property with an instance variant that is empty or holds neither a class nor a class pointer reports an error instead of silently doing nothing.", "quantifier": "every instance variant", "why_tests_cant": "Needs wrong-typed instances; none in the tests.", "anchors": ["include/rtti/metadefine.h: internal::method_invoker::invoke_imp, internal::property_invoker::get_field, internal::property_invoker::set_field"]}
{"id": "C51", "title": "The definition builder nests scopes correctly", "statement": "In a fluent chain, every item is defined in the container opened by the innermost _namespace/_class not yet closed by _end, attributes and elements go to the most recently opened or created item, and after balanced chains the current container is the one before; the container stack ends empty.", "quantifier": "every well-nested chain of any depth and length", "why_tests_cant": "All chains.", "anchors": ["include/rtti/metadefine.h: meta_define::_namespace, meta_define::_class, meta_define::_end, meta_define::_enum, meta_define::_attribute, meta_define::_element"]}
{"id": "C52", "title": "Defining a class registers exactly its special constructors, retrievable by kind", "statement": "After _class<C>, defaultConstructor/copyConstructor/moveConstructor are non-null exactly when C is default/copy/move constructible; further constructors never change which constructor these return; a constructor with parameters (A...) is found by getConstructor<A...>(name).", "quantifier": "every class capability set, every sequence of further constructors", "why_tests_cant": "All sequences.", "anchors": ["include/rtti/metadefine.h: meta_define::_class, ConstructorInvoker::signature", "src/metaconstructor.cpp: MetaConstructor::create", "src/metacontainer.cpp: MetaContainer::defaultConstructor"]}
{"id": "C53", "title": "Printing type flags prints their names", "statement": "Streaming a set of type flags prints the names of exactly the flags in the set, separated by '|', and never reads outside the name table. Streaming a MetaType prints its id, name and flags.", "quantifier": "every subset of flags; every registered type and the invalid one", "why_tests_cant": "2^24 flag sets; the failure is an out-of-bounds read.", "anchors": ["src/metatype.cpp: flag_name, operator<<(std::ostream&, TypeFlags)"]}
{"id": "C54", "title": "Type-list operations satisfy their algebraic specifications", "statement": "get/first/last/size/concat/push/pop/index-of/exists/map/filter/fold/index-sequence compute the corresponding list functions; remove deletes the first occurrence, remove_all all; remove_duplicates keeps each element once (its last occurrence); unordered_equal holds exactly for permutations.", "quantifier": "every list of types of any length", "why_tests_cant": "Infinite families of template instantiations.", "anchors": ["include/rtti/typelist.h: mpl::typelist_get, mpl::typelist_remove, mpl::typelist_remove_duplicates, mpl::typelist_unorderedequal, mpl::make_index_sequence"]}
{"id": "C55", "title": "Type names are extracted exactly", "statement": "The text reported for a type is exactly the compiler's spelling of the type, whatever characters the spelling contains.", "quantifier": "every spelling", "why_tests_cant": "All strings, including ones containing ']' or 'T ='.", "anchors": ["include/rtti/typename.h: internal::TypeName"]}
{"id": "C56", "title": "meta_cast is a checked dynamic cast", "statement": "meta_cast<To>(p) is null for null p; for polymorphic registered objects it is non-null exactly when the dynamic class is To or derives from To, and then equals the upcast of the complete object; the reference form throws bad_meta_cast exactly when the pointer form is null; for types without class info it succeeds only for the identical type; constness of the source does not change the result.", "quantifier": "every hierarchy, every dynamic type, every target", "why_tests_cant": "All hierarchies.", "anchors": ["include/rtti/metaclass.h: internal::meta_cast, meta_cast"]}
{"id": "C57", "title": "Type-erased construct/destruct pairs balance", "statement": "MetaType::construct gives a fresh block holding a constructed object (default, copy or move) and destruct releases it; for any sequence of calls, including constructors that throw or missing constructors, no block is leaked and every constructed object is destroyed once.", "quantifier": "every call sequence, every constructor outcome", "why_tests_cant": "All failure points.", "anchors": ["src/metatype.cpp: MetaType::construct, MetaType::destruct", "include/rtti/metatype.h: internal::type_function_table_impl"]}
{"id": "C58", "title": "Lazily defined base classes contribute inherited members", "statement": "Looking up a member on a derived class finds members of its base classes even if a base's definition is still pending.", "quantifier": "every hierarchy with any set of pending definitions", "why_tests_cant": "Depends on which classes were touched before the look-up.", "anchors": ["src/metaclass.cpp: MetaClass::getMethodInternal, MetaClass::getPropertyInternal", "src/metacontainer.cpp: MetaContainer::getMethod"]}
{"id": "C59", "title": "Adding definitions never invalidates earlier answers", "statement": "For any history, registering more items, attributes, bases, converters or types never changes the result of an earlier successful look-up by name (same object) in the same container, except that attributes and enum elements take their newest value.", "quantifier": "every history and every continuation of it", "why_tests_cant": "Monotonicity over all continuations.", "anchors": ["src/metacontainer.cpp: MetaItemList::add", "src/metatype.cpp: CustomTypes::addTypeInfo", "src/private/metaitem_p.h: NamedVariantList::set"]}
{"id": "C60", "title": "eq compares through registered conversions in either direction", "statement": "v.eq(x) is true whenever v == x; otherwise it is the comparison of the converted values when a conversion from v's type to x's type exists and succeeds, else the reverse conversion, else false; temporaries created for the comparison are destroyed exactly once and their memory freed.", "quantifier": "every variant, value and converter registry", "why_tests_cant": "All registries and conversion outcomes.", "anchors": ["include/rtti/detail/variant_impl.h: variant::eq"]}
{"id": "C61", "title": "With no pending callback, lazy definition is invisible", "statement": "In a state where no deferred callback is pending, every defining call, every look-up by name, every inheritance question and every cast behaves exactly (result and effect) as in the library without lazy definitions: the check for a pending definition that each of them makes has no effect.", "quantifier": "every state with nothing pending, every call and argument", "why_tests_cant": "Every API function makes the check, in every state; a test sees finitely many of each.", "anchors": ["src/metacontainer.cpp: MetaContainer::checkDeferredDefine, MetaContainer::getMethod, MetaContainer::getProperty", "src/metaclass.cpp: MetaClass::inheritedFrom, MetaClass::cast"]}
{"id": "C62", "title": "Forcing lazy definitions recursively runs them all", "statement": "After MetaContainer::forceDeferredDefine(ForceDeferred::Recursive) returns, every deferred definition of the container and of every namespace and class below it (also those created meanwhile) has run exactly once; no lock stays held and nothing stays marked as running however it ends; it always returns; an exception of the container's own definition reaches the caller before any member is visited.", "quantifier": "every program before it, every container tree, every set of callbacks", "why_tests_cant": "Trees, callbacks and the order in which callbacks extend the tree are unbounded.", "anchors": ["src/metacontainer.cpp: MetaContainer::forceDeferredDefine", "src/private/metacontainer_p.h: MetaItemList::for_each"]}
{"id": "C63", "title": "Enumerating members from user code that uses the library", "statement": "for_each_class and the other enumerations run the container's own lazy definition, then call the user's function once per member, in order, up to the first refusal, and nothing else; the function may itself use the library.", "quantifier": "every program before, every container and category, every user function made of library calls", "why_tests_cant": "All user functions, including those that define items or trigger lazy definitions while the list is locked.", "anchors": ["src/metacontainer.cpp: MetaContainer::for_each_class", "src/private/metacontainer_p.h: MetaItemList::for_each"]}
{"id": "C64", "title": "Qualified names asked for by several threads", "statement": "When several threads ask for qualified names at the same time, each gets the name its path spells, under every interleaving, and no thread writes a string that another may be reading.", "quantifier": "every reachable state, every assignment of items to threads, every interleaving", "why_tests_cant": "Interleavings; a race on a string rarely shows in a test.", "anchors": ["src/metaitem.cpp: MetaItem::qualifiedName"]}
{"id": "C65", "title": "Attributes read and set by several threads", "statement": "A reference returned by attribute(name) stays valid, always shows the value last set for that name, and is never written while another thread may be reading it.", "quantifier": "every interleaving of look-ups, sets and reads by any number of threads", "why_tests_cant": "Interleavings; a race on a variant rarely shows in a test.", "anchors": ["src/private/metaitem_p.h: NamedVariantList", "src/metaitem.cpp: NamedVariantList::get"]}
{"id": "C66", "title": "Definitions when memory runs out", "statement": "When an allocation fails while an attribute is set or a member is defined, the call has no effect: what was defined by calls that returned is found and enumerated as before, nothing of the failed call is visible, nothing is leaked, and the call can be repeated.", "quantifier": "every history of calls, each with any allocation failing", "why_tests_cant": "Failures at every allocation of every call of a history.", "anchors": ["src/private/metaitem_p.h: NamedVariantList::set", "src/metacontainer.cpp: MetaItemList::add", "src/metanamespace.cpp: MetaNamespace::create", "src/metaclass.cpp: MetaClass::create"]}
{"id": "C67", "title": "Types registered by several threads", "statement": "Threads that ask for type identifiers at the same time each get the identifier of the type they asked for; equal types get equal identifiers and different types different ones, a type's description is complete and right before any thread gets its identifier and never changes, each type is registered by one thread only, and the threads never wait for each other in a circle.", "quantifier": "every interleaving of any number of threads asking for any types", "why_tests_cant": "Interleavings of initialisers of static variables.", "anchors": ["include/rtti/metatype.h: metaTypeId, meta_type", "src/metatype.cpp: CustomTypes::addTypeInfo"]}
{"id": "C68", "title": "Function traits describe the function", "statement": "For every pointer to a function or member function, with any const, volatile, reference and noexcept qualifiers, and for function objects, function_traits gives its class, qualifiers, result and argument types, and the signature with the object as first parameter; a method is invoked on an object exactly when it is a member function.", "quantifier": "every function type, any arguments", "why_tests_cant": "There are unboundedly many function types; tests instantiate a few.", "anchors": ["include/rtti/function_traits.h: function_traits_helper", "include/rtti/metadefine.h: method_invoker_tag"]}
{"id": "C69", "title": "Scope guards run once", "statement": "A scope guard's function runs exactly once when its block is left, by its end or by an exception, unless it was dismissed; guards of a block run in the reverse of the order they were made.", "quantifier": "every block of statements, guards, dismissals, moves and exceptions", "why_tests_cant": "Every combination of exits and dismissals.", "anchors": ["include/rtti/finally.h: scope_guard"]}
{"id": "C70", "title": "The end of the program", "statement": "When the program ends every meta-object ever defined is destroyed exactly once; queries made meanwhile, by destructors of user statics, answer null or as before and never touch destroyed objects.", "quantifier": "every reachable registry, both orders of construction of the library's statics, every query", "why_tests_cant": "Tests end in main; the order of statics depends on which function is called first, and a use of a destroyed object usually goes unnoticed.", "anchors": ["src/metanamespace.cpp: MetaNamespace::global", "src/metatype.cpp: CustomTypes", "src/private/metacontainer_p.h: MetaItemList", "src/metaclass.cpp: inheritedFrom, cast"]}
{"id": "C71", "title": "Hierarchy declared and walked by several threads", "statement": "When several threads declare base classes and query the hierarchy at the same time, no thread waits forever, no list is modified while it is walked, each answer (inherited or not, member found or not) was right at some moment during the call, and when no call is running the lists of base and derived classes mirror each other and hold exactly what was declared.", "quantifier": "any number of threads, programs and interleavings, with and without preference for waiting writers", "why_tests_cant": "Nested shared locks deadlock only under rare interleavings with a waiting writer.", "anchors": ["src/metaclass.cpp: addBaseClass, inheritedFrom, getMethodInternal, getPropertyInternal", "src/private/metaclass_p.h: BaseClassList, DerivedClassList"]}
{"id": "C72", "title": "Converters used by several threads", "statement": "When several threads register, unregister, query and run converters at the same time, every call answers as if the calls had been made one after the other; of competing registrations for a pair of types exactly one is told that it succeeded, and its function is the one that runs from then on; no thread waits forever.", "quantifier": "any number of threads, programs and interleavings", "why_tests_cant": "The order of initialising the static converter and of entering it in the table differs only under rare interleavings.", "anchors": ["include/rtti/metatype.h: MetaType::registerConverter_imp", "src/metatype.cpp: MetaTypeFunctionList::add, get, remove, find", "src/metatype.cpp: MetaType::convert"]}
{"id": "C73", "title": "A call by reflection is the call that was written", "statement": "Calling a function by reflection - directly, with an instance, or by name - calls the function found, on the object the instance stands for if it is a member function, with the k-th argument passed to the k-th parameter; otherwise it fails before the function is called, in a way determined by the types, constness and value categories of the instance and the arguments. Static functions get just the arguments given.", "quantifier": "every registered class graph, every function of up to ten parameters, every instance, every list of arguments: objects, variants, empty variants or nothing", "why_tests_cant": "The product of parameter kinds, argument kinds, constness and class relations is unbounded; the tests call a handful of functions with matching arguments.", "anchors": ["include/rtti/detail/variant_impl.h: variant::invoke", "include/rtti/detail/metamethod_impl.h: MetaMethod::invoke", "include/rtti/metadefine.h: method_invoker, pack_arguments, PropertyInvoker", "include/rtti/detail/argument_impl.h: argument::value"]}
{"id": "C74", "title": "What runs is what was registered", "statement": "In every program of definitions, calling a method or accessing a property by name through a variant runs the function, or accesses the member, which the program registered under this name or signature for the class of the object or an ancestor, and never one with other parameter types when a signature was asked for; if the program registered none, runtime_error is thrown. Every registration is effective: an object of the class, asked for exactly the registered signature, runs the registered function, whatever is defined later.", "quantifier": "every program of definitions (namespaces, classes, bases, enums, methods, properties, in any order), every object, name and argument list", "why_tests_cant": "The answer depends on the whole history of registrations: overloads, inherited members, repeated and conflicting definitions; tests have one fixed program.", "anchors": ["src/metamethod.cpp: MetaMethod::create", "src/metaproperty.cpp: MetaProperty::create", "include/rtti/metadefine.h: meta_define::_method, meta_define::_property", "include/rtti/detail/variant_impl.h: variant::invoke", "include/rtti/signature.h: f_signature"]}
{"id": "C75", "title": "Enumerations that use the library while other threads define", "statement": "Several threads add, look up and enumerate members at the same time, and the functions given to for_each_class, for_each_method and the other enumerations use the library themselves. No list changes while it is enumerated; every enumeration calls the function with exactly the items of the list, in order, up to the first refusal; and no thread waits or runs forever.", "quantifier": "any number of threads, lists, programs (nested enumerations, look-ups and additions that may depend on what was found) and interleavings, with and without preference for waiting writers", "why_tests_cant": "The functions are called with the list's lock held; whether the nested locks block depends on the interleaving with a waiting writer and on the platform's shared_mutex.", "anchors": ["src/private/metacontainer_p.h: MetaItemList::for_each", "src/metacontainer.cpp: MetaItemList::add, get, size, MetaContainer::for_each_class, for_each_method"]}
{"id": "C76", "title": "Constructors run, and convert, as registered", "statement": "In every program of definitions: the constructor found for a class under a query is one the program registered for this class under a signature the query denotes, and invoking it runs that constructor with the k-th argument passed to its k-th parameter and gives a variant that holds a new object of the class; every registration with a new signature stays found. Converting a variant to a class uses the first converter registered for the two types, by registerConverter or by an implicit constructor of one parameter: an object of a type the constructor accepts is converted by it, an exception becomes a failed conversion, and nothing is converted that the language would not let the constructor accept.", "quantifier": "every program of definitions (with constructors and converters in any order), every class, query, argument list and variant", "why_tests_cant": "Which converter is in effect depends on the order of all registrations and on types up to cv and decay; a test has one program with a handful of types.", "anchors": ["include/rtti/metadefine.h: meta_define::_constructor, register_converting_constructor, internal::ConstructorInvoker", "src/metaconstructor.cpp: MetaConstructor::create", "include/rtti/misc_traits.h: is_converting_constructor", "include/rtti/metatype.h: MetaType::registerConverter, internal::default_convert", "include/rtti/variant.h: variant::to"]}
{"id": "C77", "title": "What is thrown, and what catches it", "statement": "A defining call throws exactly when it has to be refused (the type is unknown: invalid type id; it has a class already: duplicate_metaclass; a base has no class yet: unregistered_metaclass), and then changes nothing; looking up, asking about bases and casting never throw; no program, with callbacks and attributes, lets std::out_of_range or any other foreign exception out. Accessing a variant fails only with bad_variant_cast, converting only with a bad_cast, a refused argument with a bad_cast, a wrong number of arguments with invoke_error; whatever a call, a property access or a call by name throws is the user's own exception or is caught by catch (rtti::runtime_error const &).", "quantifier": "every reachable state and defining call; every program with callbacks, nested and throwing ones included; every variant, target type, function, property, instance and argument list", "why_tests_cant": "A test shows that one misuse throws one exception; that nothing else can ever arrive at a handler is about all states, types and argument lists.", "anchors": ["include/rtti/metaerror.h", "include/rtti/detail/variant_impl.h: metafunc_to, metafunc_cast", "include/rtti/variant.h: variant::to, ref, cref, rref", "include/rtti/detail/metamethod_impl.h, include/rtti/detail/argument_impl.h, include/rtti/metaerror.h: bad_argument_cast, invoke_error", "src/metaclass.cpp: MetaClass::create, addBaseClass", "src/metatype.cpp, src/private/metatype_p.h"]}
{"id": "C78", "title": "What was put into a variant comes out of it", "statement": "After any sequence of constructions, copies, moves, assignments, swaps, clears, thrown exceptions and assignments through references, a variant that contains a value gives access, under the type it was stored with, to an object of its own with exactly this value, in its buffer, on the heap or as an array; one made from a reference gives the very object referred to; to<T>() copies the object, and throws exactly when the copy constructor throws or T cannot be copied. No two variants share an object or an address. An assignment through x.ref<T>() changes the value of x (or of the variant whose object x refers to) and nothing else. A function registered for a class, called by its signature through a variant that contains an object of the class, runs on this object.", "quantifier": "every set of types (sizes, throwing copies and moves), every program of variant commands with exceptions and writes, every layout of variants and blocks in memory, every variant of the state, every program of definitions", "why_tests_cant": "A test stores a few values and reads them back; that storage management and typed access agree about where an object is, for every type size and every history of moves and swaps, is a statement about all programs.", "anchors": ["include/rtti/variant.h: variant, type_storage, ref, data, to", "include/rtti/detail/variant_impl.h: function tables, metafunc_cast, metafunc_to", "src/variant.cpp", "include/rtti/metadefine.h: method_invoker"]}
{"id": "C79", "title": "Type traits say what they are named for, and descriptions of types agree with them", "statement": "remove_all_cv_t<T> has no const or volatile at any level, differs from T in nothing else, and is the same for two types exactly if they differ in qualifiers only (references kept). add_pointers_t<T, n> is T with n pointers in front; remove_all_pointers_t<T> is what is behind all pointers, unqualified, and adding as many pointers again gives T back up to qualifiers. array_length_v is the number of elements that are no arrays, and sizeof(T) that many times their size. base_type_t is what is at the bottom. is_lvalue_const_reference and is_class_ptr answer their names. MetaType::isClassPtr agrees with is_class_ptr, and the flags EQ_Comparable and CopyConstructible agree with whether values of the type can be compared and copied.", "quantifier": "every type of the grammar, with references, every number of pointers, every pair of variants", "why_tests_cant": "Static assertions check the types they name; the traits are recursive templates and the claim is about every nesting of pointers, arrays and qualifiers.", "anchors": ["include/rtti/misc_traits.h:37-255", "include/rtti/metatype.h:455-487, 584-590"]}
{"id": "C80", "title": "Objects kept in variants are aligned", "statement": "In every program of variant commands the object a variant keeps, in its buffer or on the heap, is at an address that is a multiple of alignof of its type.", "quantifier": "every set of types, every alignment of types, every program, every placement of variants (aligned to 8, as alignof(variant) is) and of blocks (aligned to 16, as operator new guarantees)", "why_tests_cant": "Whether a misaligned object shows depends on where the compiler happens to put the variant; the claim is about all placements and all types.", "anchors": ["include/rtti/variant.h:19-26", "include/rtti/detail/variant_impl.h: is_inplace", "include/rtti/metatype.h:226-229, 318-321"]}
{"id": "C81", "title": "No temporary of a call survives it", "statement": "Every temporary made for the parameters of a call (copies and conversions made by variant::to<T>(), the values kept in argument::m_dummy, parameters by value) is alive and has the converted value while the function runs, and is destroyed, and its block freed, when the call returns or throws. Variants, objects and blocks that existed before are unchanged.", "quantifier": "every set of types with any copy and move constructors (throwing or not, honest about noexcept or not), every list of parameters, every mixture of copies, accepted, declined and failing conversions, every function that reads its parameters and returns or throws", "why_tests_cant": "A test sees the types and the failures it sets up; which objects are lost depends on where the type is stored, on which constructor throws and at which parameter.", "anchors": ["include/rtti/variant.h:256-282, 509-538, 632-674", "include/rtti/detail/argument_impl.h:12-113", "include/rtti/metatype.h:419-433", "include/rtti/metadefine.h:150-219, 291-435"]}
{"id": "C82", "title": "A reference returned by a call refers to an object that exists", "statement": "When a function that returns a reference is called through a method object, the reference in the returned variant is to an object that exists after the call. The call itself is the same as that of a function that returns nothing.", "quantifier": "every set of types with any copy and move constructors, every list of parameters (bound directly, converted, by value), every function that by what it reads throws or returns a reference to a parameter or to another object", "why_tests_cant": "A dangling reference usually still reads the old value; whether it dangles depends on how each argument was converted, and a test sees the conversions it sets up.", "anchors": ["include/rtti/metadefine.h:206-212, 394-435", "include/rtti/detail/argument_impl.h:12-113", "include/rtti/variant.h:632-674"]}
{"id": "C83", "title": "Registering types, converters and base classes when memory runs out", "statement": "When memory runs out while a type id is asked for, a converter is registered, looked for or run, or a base class is added, the call throws and changes no answer of any later call; repeating it when there is memory gives what it would have given the first time.", "quantifier": "every program of typed registry calls (ids, look-ups, converters), every choice of failing allocations, any naming that tells types apart; every addBaseClass call in any world, failing at either of its two lists", "why_tests_cant": "Each allocation of each call is a place to fail, and what a failed call leaves behind shows only in combinations of later calls.", "anchors": ["src/metatype.cpp:75-100, 222-232, 343-354, 415-425", "include/rtti/metatype.h:496-529, 641-855", "src/metaclass.cpp:92-121", "src/private/metaclass_p.h:12-90"]}
{"id": "C84", "title": "Pointers cast upwards while other threads declare base classes", "statement": "When several threads cast pointers to base classes and declare base classes at the same time, no thread waits forever and no list is modified while it is walked; every answer is the one a single thread would have got at some moment of the call: an address is what the declared casters give along the first way up, a null pointer is answered only if the target was not a base.", "quantifier": "any number of threads, programs, casters and interleavings, with and without preference for waiting writers, no cyclic declarations", "why_tests_cant": "cast asks inheritedFrom and then descends again, with the hierarchy free to change in between; a wrong answer or a deadlock needs a declaration between two particular steps.", "anchors": ["src/metaclass.cpp:92-106, 123-174", "src/private/metaclass_p.h:48-107"]}
{"id": "C85", "title": "Deferred definitions leave the library as plain definitions would", "statement": "In every program with deferred definitions - nested, failing, caught, installed by one another, defining into other containers - the library is at every moment in a state to which everything said of plain definitions applies: owners, names, lists, classes by type, base classes. Nothing listed or found earlier is lost or reordered by what runs later, and when nothing is pending inheritedFrom, cast and the look-ups of methods and properties end and answer exactly by the declared hierarchy. Whatever a container lists, a base class with its conversion, the class of a type and a registered type were each asked for by a call of the program or of a deferred definition in it. A definition gives the same members whether it is deferred or made directly.", "quantifier": "any program, callbacks to any depth, any outcome, casters and names; no cyclic base declarations", "why_tests_cant": "A callback can run in the middle of any look-up, and create what the look-up has already passed; only an invariant over all programs shows that no such interruption leaves an inconsistent list, owner or base.", "anchors": ["src/metacontainer.cpp:153-350", "src/private/metacontainer_p.h:28-79", "src/metaclass.cpp:60-235"]}
{"id": "C86", "title": "Base classes declared in a circle", "statement": "A class declared as its own base, or classes declared as bases of one another, are never refused. After any calls at all, inheritedFrom, cast and the look-ups of methods and properties answer exactly by the declared hierarchy if the search, which takes the bases in the order of their declarations, comes to what is sought before it runs into a circle; they answer that there is nothing exactly if nothing can be reached and there is no circle; in every other case they never end. So in a class from which a circle can be reached no new method or property can be defined, and values of such a class never answer for members that do not exist.", "quantifier": "any sequence of calls, with no condition on the base classes declared; any classes, names, casters and values", "why_tests_cant": "That a call never ends cannot be observed, and which of the circles of a hierarchy is met first depends on the order of all declarations.", "anchors": ["src/metaclass.cpp: MetaClass::addBaseClass, inheritedFrom, cast, getMethodInternal, getPropertyInternal", "include/rtti/metadefine.h: metacast_to_base, meta_define::_base", "include/rtti/variant.h: metafunc_is::cast_imp, metafunc_cast::cast_imp", "src/variant.cpp: variant::get_property"]}
{"id": "C87", "title": "Converting a variant in place", "statement": "convert<T>() and tryConvert<T>() replace what a variant contains by an object of type T with the value that was copied or that the converter made, or leave every variant as it was: convert then throws, tryConvert answers false and never throws. This holds in any program that also creates, copies, moves, swaps, clears and destroys variants, whatever constructors, converters and allocations do; such a conversion is never undefined, no object is destroyed twice, and every object made for a conversion is destroyed when the variants are gone.", "quantifier": "any program of variant operations and conversions, any types (small, large, not copyable, with constructors that throw or change the value), any converters, any failing allocations", "why_tests_cant": "The paths depend on which of several constructor calls inside one conversion throws, on where old and new object are stored, and on what happened to the variant before; lost objects show nothing.", "anchors": ["include/rtti/variant.h: variant::convert, tryConvert, to, metafunc_to::invoke", "include/rtti/detail/variant_impl.h: variant::operator=(T&&), function tables", "src/variant.cpp: variant::swap"]}
{"id": "C88", "title": "What a variant says of itself", "statement": "typeId() is the id of the type of the object the variant was made from or refers to, without reference and, for its own object, without top-level const and volatile; it is the invalid id exactly for an empty variant. A variant can be read as the type it says: is<T&>() holds, and ref<T>() and data<T>() give the very object. metaClass() is the class registered for the object the variant stands for or points to, by its dynamic type if the class tells, and null otherwise.", "quantifier": "every variant content, every type, every set of registered classes", "why_tests_cant": "All types, storage kinds and class hierarchies.", "anchors": ["include/rtti/variant.h:122-131, 344-347", "include/rtti/detail/variant_impl.h:56-70, 120-134, 187-201, 258-272, 337-381, 399-414", "src/variant.cpp:86-89"]}
{"id": "C89", "title": "Writing a property leaves no temporaries", "statement": "MetaProperty::set on a static object or a data member makes the new value as a temporary (and a pointer, if the instance holds one), assigns it to exactly the object found, and destroys every temporary, also if the assignment or a conversion throws. A write that is refused changes nothing; a write to an instance without the property does nothing at all. A setter is called as any member function is.", "quantifier": "every property kind, instance, argument, class graph, converter behaviour, throwing assignment and copy constructor", "why_tests_cant": "All combinations of instances, conversions and exceptions; lost temporaries are not visible to an assertion.", "anchors": ["include/rtti/metadefine.h:652-658, 704-733, 795-805", "include/rtti/variant.h:770-775, 806-834", "include/rtti/detail/argument_impl.h:80-96"]}
{"id": "C90", "title": "Reading a property copies nothing and leaves no temporaries", "statement": "MetaProperty::get of a static object or a data member gives a variant that refers to exactly the object found, without copying it; of a getter that returns a value, a variant that owns that value. Everything made on the way is destroyed. A read that is refused gives no result and leaves nothing; an instance that is no class gives an empty variant.", "quantifier": "every property kind, instance, class graph, converter behaviour, throwing getter", "why_tests_cant": "All combinations of instances, conversions and exceptions; lost temporaries are not visible to an assertion.", "anchors": ["include/rtti/metadefine.h:649-650, 694-702, 792-799", "include/rtti/variant.h:763-804"]}
{"id": "C91", "title": "A lazy definition that fails while several threads query the container", "statement": "If the callback of a lazy definition throws while any number of threads query the container, then under every interleaving exactly one query ends with the exception, the callback is not run again and the in-progress mark is cleared; no query waits for another, none is undefined, and every other query answers with the definitions made before the exception.", "quantifier": "every number of threads, every interleaving, every number of definitions made before the exception", "why_tests_cant": "The interleavings of the failing query with the others are unbounded, and the windows between test, exchange and reset are a few instructions wide.", "anchors": ["src/metacontainer.cpp: MetaContainer::checkDeferredDefine", "include/rtti/finally.h: scope_guard"]}
{"id": "C92", "title": "Loops by index while other threads define", "statement": "A loop `for (i = 0; i < count(); ++i) get(i)` over the members of a container, or over its attributes by name and value, sees no null, no item twice and leaves none out, however other threads add items or set attributes between its calls: what it has seen is at every moment the beginning of the list in the order of definition, at the end exactly the names or items of one moment during the loop, and it ends as soon as it has overtaken the others. Each attribute value is the one its name had when it was read.", "quantifier": "every history of definitions, every number of other threads, every interleaving of critical sections", "why_tests_cant": "Interleavings of calls by several threads are unbounded and cannot be forced from a test.", "anchors": ["src/metacontainer.cpp:46-52, 67-71", "src/metaitem.cpp:13-19, 33-39", "src/private/metaitem_p.h:37-70"]}
{"id": "C93", "title": "Types are told apart by their text, classes are found by it", "statement": "Whatever types are asked for, classes defined and bases declared, in whatever order, two types have the same `metaTypeId` exactly when `type_name` gives them the same text, and what is known about a type is the description of a type with its text; different types are different for the library. `MetaClass::find(name)` finds a class exactly when `name` is the text of the type that the class describes, whatever name the class was defined under; it agrees with `MetaClass::find(id)`; a class just defined is found this way and stays found.", "quantifier": "every assignment of non-empty texts to types, every history of calls", "why_tests_cant": "Any order of registrations of any set of types and classes; texts that clash come from separate files and from lambdas, which a test of one file does not have.", "anchors": ["src/metaclass.cpp:44-54", "src/metatype.cpp:63-73, 114-119, 234-238", "include/rtti/metatype.h:480-529", "include/rtti/metadefine.h:866-881"]}
{"id": "C94", "title": "Looking into a variant through type ids is looking at the types", "statement": "`variant` compares and finds types by their ids: `MetaType::compatible` and `decayId()` on what is registered, `MetaClass::find(id)` for the class of the object and the class asked for, `MetaType::convert` and `hasConverter` for a converter. Whatever types, classes, bases and converters were registered and unregistered before, `is`, `ref`, `cref`, `rref`, `data`, `to` and `canConvert` give exactly what the rules on the types themselves give (those of C42 to C44 and C78), as long as the types in use have different texts and `classInfo()` answers with ids that were given out.", "quantifier": "every history of registrations, every variant, every type asked for, every assignment of non-empty texts that tells the types in use apart", "why_tests_cant": "The answer depends on the whole history of registrations through ids that are addresses; a wrong decayed id or a stale entry shows only for particular pairs of types after particular histories.", "anchors": ["include/rtti/variant.h:133-314, 340-345, 353-597", "src/metatype.cpp:108-112, 129-220, 234-238, 397-445", "src/metaclass.cpp:44-48", "include/rtti/detail/variant_impl.h:337-381"]}
{"id": "C95", "title": "Calls through type ids do what the types tell", "statement": "Arguments find out through ids whether they are variants (`argument::isVariant`), the invokers whether the instance is a class or a class pointer, `variant::invoke`, `get_property` and `set_property` which class to search. Whatever was registered before, reading arguments, calling static functions, constructors and member functions, reading and writing properties, also by name, does exactly what the rules on the types themselves tell (those of C45 to C50): the same function on the same object with the same parameters, or the same exception, under the assumptions of C94 for the types involved.", "quantifier": "every history of registrations, every function, property, instance and list of arguments, every assignment of non-empty texts that tells the types in use apart", "why_tests_cant": "Every id along the way depends on the whole history of registrations; a test has one history and a handful of types.", "anchors": ["include/rtti/variant.h:632-674, 763-834", "include/rtti/detail/argument_impl.h:12-113", "include/rtti/metadefine.h:80-436, 640-805", "include/rtti/detail/variant_impl.h:501-560", "src/variant.cpp:116-133"]}
{"id": "C96", "title": "Comparing variants through type ids is comparing by the types", "statement": "`operator==`, `eq` and `std::hash` find out through ids what the variants hold: whether the types are compatible and decay to the same, whether they are arrays, how large they are, and which converter to try. Whatever was registered before, they do exactly what the rules on the types themselves tell (those of C40, C41 and C60), the temporaries of `eq` included, if the types involved were registered, are not `void`, and the types in use are told apart by their texts.", "quantifier": "every history of registrations, every pair of variants, every value compared with, every behaviour of the converters and of the `==` of the types, every assignment of non-empty texts that tells the types in use apart", "why_tests_cant": "Every id along the way depends on the whole history of registrations; a test has one history and a handful of types.", "anchors": ["src/variant.cpp:91-114", "include/rtti/detail/variant_impl.h:458-499, 566-580", "src/metatype.cpp:162-220, 400-445"]}
{"id": "C97", "title": "Classes belong to the types they were defined for, and meta_cast follows the declarations", "statement": "After any calls, if the types in use are told apart by their texts: the class found by the id of a type is the one that `_class` of this very type made (for any texts: of a type with the same text), so types and classes correspond one to one; the class of one type is or derives from that of another exactly if successful `_base` declarations lead from the one type to the other; `meta_cast<T>` of an object whose `classInfo()` names `D` is null unless both types have classes and declarations lead from `D` to `T`, otherwise it is the address along such declarations (of several for one class and base the first counts), and it fails to end only if declarations lead from some type back to it.", "quantifier": "every history of registrations, definitions and declarations, circular ones included; every pair of types; every address; every assignment of non-empty texts that tells the types in use apart", "why_tests_cant": "Which class an id leads to, and along which bases, depends on the whole history; a test has one history and a handful of classes.", "anchors": ["include/rtti/metaclass.h:70-135", "src/metaclass.cpp:10-54, 92-106, 123-160", "include/rtti/metadefine.h:866-915, 1012-1022"]}
{"id": "C98", "title": "A variant gives access to base classes as declared", "statement": "After any calls, if the types in use are told apart by their texts, and a variant holds an object of a class, or a pointer to one: `is<T>` for another class `T` (a pointer to one) of suitable constness is true exactly if both classes were defined and `_base` declarations lead from the class the object says it is of (by `classInfo()`, without one its own) to `T`; `ref<T>`, `cref<T>`, `rref<T>` then give what is at the address along such declarations - for a pointer the one held, if it points there, and `bad_variant_cast` if not -, and `bad_variant_cast` without declarations. `to<T>` makes a copy of what is there (for pointers a pointer to it), and leaves it to the registered converter if there are no declarations. None of them fails to end unless declarations lead from some base back to it.", "quantifier": "every history of registrations, definitions and declarations; every variant holding an object of a class or a pointer to one; every class asked for; every answer of `classInfo()` that is an id given out; every assignment of non-empty texts that tells the types in use apart", "why_tests_cant": "The answer depends on all declarations made before, through four layers (variant, class info, class look-up, base walk); tests show a few chains of classes.", "anchors": ["include/rtti/variant.h:133-256, 353-502", "include/rtti/detail/variant_impl.h:337-381", "src/metaclass.cpp:92-175", "include/rtti/metadefine.h:866-915, 1012-1022"]}
{"id": "C99", "title": "Member functions and fields belong to the declared part of the object", "statement": "After any calls, if the types in use are told apart by their texts: when a member function of a class `C` is called with an instance that holds an object of another class, or a pointer to one, the call succeeds only on the object at the address along `_base` declarations that lead from the class the object says it is of (by `classInfo()`, without one its own) to `C`; never on any other address, never without such declarations, never on null. Conversely, if there are such declarations, none in a circle or to null, constness allows the call and the arguments fit, the function is called there with these arguments. A field of `C` that is read or written is the one in that object, and gets the value of the argument. Members given by name are looked for in the class that was defined for the type the object says it is of, and if there is none the call throws.", "quantifier": "every history of registrations, definitions and declarations; every member function and arguments; every instance holding an object of a class or a pointer to one (for pointers, if no converter makes pointers to `C` of it); every assignment of non-empty texts that tells the types in use apart", "why_tests_cant": "A wrong address is silent when the base is at offset zero, as in most tests; the statement is about all hierarchies and offsets.", "anchors": ["include/rtti/metadefine.h:222-436, 694-733, 866-915", "include/rtti/detail/metamethod_impl.h:6-16", "include/rtti/detail/variant_impl.h:501-560", "include/rtti/variant.h:127-282, 417-600", "src/metaclass.cpp:92-175"]}
