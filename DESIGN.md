# Formal model of uniffi-rs in Lean 4: design

The model lives in `lean/Verif`. Sources in `/repo` were read as text and never built.
Each area has a *model* file (definitions that follow the code function by function, each with
a comment citing file and lines), a *spec* section or file (small definitions written from the
English property only), a *lemma* file when needed, and a *property* file `Verif/Props/*.lean`
holding the theorems listed in `MANIFEST.json`. Beside each theorem an `example` shows a
concrete case meeting its hypotheses.

## Modelling conventions

* Byte strings are `List UInt8`. `&mut Vec<u8>` writers return the bytes they append.
  `&mut &[u8]` readers return the remaining bytes.
* Fixed width integers are `Int`/`Nat` with explicit range conditions, or `BitVec`/`UIntN`
  where wrap-around matters.
* `anyhow::Result` is `Except`-like: errors keep a small error code, not the message text,
  except where the text is part of the property (C21, C20).
* A panic is an explicit outcome (`panic`), never a Lean default value.
* Recursion through user-defined recursive types is bounded in the reader by a fuel argument
  that stands for stack depth. Theorems say that *every* sufficiently large fuel works and give
  the bound (the depth of the value), and that running out of fuel is a separate outcome.
* Concurrency: every mutex-protected region or atomic instruction is one step of a transition
  system; theorems quantify over all step sequences (all interleavings, any number of threads).
* Hash maps and sets are association lists without repeated keys; the list order is the
  iteration order, so quantifying over lists quantifies over iteration orders.

## Plan per property

| id | modelled | how proved |
|----|----------|------------|
| C01 | `Ty`, `Val`, type environment, `write`, `read` following each FfiConverter impl | induction on the typing derivation/value with mutual lists |
| C02 | the same reader | induction on fuel, generalising bytes: result is a suffix and is well typed |
| C03 | the same | locality lemma (reading ignores what follows) + C01 |
| C04 | `tryLiftFromRustBuffer`, `lowerIntoRustBuffer` | from C01/C02 |
| C05 | `SystemTime` as signed nanoseconds; the sign/abs arithmetic on i64 | arithmetic; witness for the broken range; exact characterisation |
| C06 | `Duration::new` carry arithmetic | arithmetic |
| C07 | the same reader | direct case analysis stated for all bytes |
| C08 | the insertion fold | fold lemmas, permutations |
| C09 | the same | from C01 |
| C10 | the same, restricted types | induction on fuel |
| C11 | `write` as a partial function | induction: defined iff all sizes in range |
| C12-C15 | one record of primitive operations per language, following the templates; the compound converters are shared because the templates have the same shape | per-primitive agreement + generic induction; counter-examples where the code disagrees; for times in Swift, error bounds of rounding to 53 bits |
| C16 | Kotlin `allocationSize` | induction; UTF-8 vs UTF-16 length of a string |
| C17 | builder with capacity, length, contents; Rust `reserve` | invariant over all write sequences |
| C18 | `RustBuffer` over a heap of allocations | case analysis |
| C19 | op histories over the heap | invariant by induction over histories |
| C20 | `rust_call_with_out_status` over an outcome type | case analysis, total |
| C21 | lift closure as a fold over argument lifts; `gen_ffi_function` | induction over the argument list |
| C22 | foreign status check of each language composed with C20 | case analysis |
| C23 | `LiftReturn::lift_foreign_return` | case analysis |
| C24 | `FfiSerialize` over `List UInt64` slots | induction over argument list |
| C25-C27 | scheduler + RustFuture as a multi-threaded transition system | invariant by induction over all executions |
| C28 | `WrappedFuture` | invariant over op lists |
| C29 | Arc counting for the future and waker clones | invariant |
| C30 | oneshot transition system | invariant |
| C31 | foreign future on top of the oneshot | invariant |
| C32 | driver loop state machine | invariant |
| C33 | heap of Arcs with handles | invariant over op lists |
| C34 | handle map with counter | invariant |
| C35 | both heaps together with tagged handles | invariant |
| C36 | Kotlin counter/flag transition system, atomic instruction granularity | invariant; counter-example for argument passing |
| C37 | `MetadataBuffer` with its fixed array and size | refinement to list concatenation |
| C38 | `TYPE_ID_META` and `read_type` | induction on the type |
| C39 | per-item encoders and readers | composition of codec round trips |
| C40 | the same readers | suffix/locality lemmas |
| C41 | both FNV loops | loop = fold, equality for all inputs |
| C42 | the Checksum byte streams | prefix-free codes |
| C43 | `group_metadata` | induction over the list |
| C44 | symbol builders on strings | string arithmetic; witnesses for collisions |
| C45 | DependencySorter | induction on the number of unsorted items |
| C46 | the DFS with stack and visited set | invariant; witness of the missed member |
| C47 | `determine_discriminants` | induction over variants |
| C48 | `iter_types`, `rename_recursive` | structural induction, witness for Box |
| C49 | the byte comparison loop | loop invariant |
| C50 | collection and ordering of trait methods in both generators, declared vtable types, filling of the table, frames of a call | sortedness + uniqueness of sorted lists, composition with C39 |
| C51 | `ForeignBytes::as_slice` | case analysis |
| C52 | C types of scaffolding parameters against the declarations of the four generators, through the metadata | structural induction on types, composition with C39; exact iff |
| C54 | the set of known types of an interface, module path normalisation, duplicate names | induction over the list of added types; set equality with the types that occur |
| C55 | the walk over everything reachable from a type, over definitions that may be cyclic | worklist invariant; the answer equals reachability in a relation defined separately |
| C56 | the canonical names of types in the pipeline, Kotlin and Swift; Ruby is left out | unique decodability of the concatenated names by induction on the type; witnesses for the clashes |
| C57 | `visit_mut` with the TOML renamer and `derive_ffi_funcs`; the pipeline's renaming of every node | equality with a renaming written from the description of the configuration, for all interfaces; no dangling references as a corollary; witnesses for the missed places |
| C58 | default literals from attribute to metadata to the text in four languages; a scanner and evaluator of literals per language | induction on the default; exact conditions for strings |
| C59 | the integer lexer of weedle, `from_str_radix`, conversion of default literals in UDL | induction on digit lists; composition with C58 |
| C60 | `apply_exclusions` and its effect on callback tables; the pipeline's filters | equality with a filter written from the description; witness for the shifted table |
| C61 | `resolve`, `child` and what they call, `LookupCache`, items and modules, use statements (`Src/Syntax.lean`, `Src/Paths.lean`, `Src/UseTree.lean`). Functions below `child` are programs that ask for children; `child` answers them with cache and cycle check. The specification is `Names`/`Walks`/`Denotes` in `Src/PathsSpec.lean` | Induction on fuel with an invariant on the cache and on the stack of lookups in progress; a lookup that ends is shown equal to one without cache because lookups in progress take longer than those they start. Witnesses for cyclic globs, `self::`, raw identifiers, private items, builtin panic |
| C62 | `public_paths.rs` as programs over the name lookup of C61, with both caches (Src/PublicPaths.lean); spec: public modules, `Exports`, `Leads` (Src/PublicSpec.lean) | weakest preconditions over all answers of the lookup; modules searched form a set closed under glob imports; fuel bounded by the number of modules; counterexamples for functions behind globs, private items, shadowing, nested modules, mixed cache keys |
| C63 | `types.rs`: resolving types with both caches (Src/Types.lean); spec: `Means` (what a type stands for, no caches, no order) and `Crosses` (what the macros see) | invariant on caches and induction on fuel; a rank on aliases and custom types bounds the recursion; inversion of the conversion to metadata types; loops proved for all fuel |
| C64 | `compile_env.rs`, `attrs/*.rs`, the `parse` functions of all items, `Ir::resolve_items` (Src/Cfg.lean, Src/Parse.lean); spec: predicates over the options of the compiler and the program it keeps (Src/CfgSpec.lean, Src/StripSpec.lean) | mutual induction over predicates; reading the program as written equals reading the kept program, by induction over items |
| C65 | the `*_metadata` functions of all items, `createDefault`, `Module::create_metadata` (Src/Emit.lean); spec: which metadata belongs to which item (Src/EmitSpec.lean) and what the macros see (Src/MacroSpec.lean) | Hoare logic over the lookups, mutual induction over items; agreement with the macros through the meaning of sources in Meta/Spec.lean |
| C66 | `UniffiMetaConverter` and the functions that add items to a `ComponentInterface` (Gen/Assemble.lean); spec: the role of an item, where crates live, what references lead to (Gen/AssembleSpec.lean, Gen/AssembleRefs.lean) | invariants over the list of items for both ways, uniqueness of sorted lists for the order, then a comparison of the two |
| C67 | `InterfaceCollector::from_webidl` on parsed definitions (Udl/Syntax.lean, Udl/Collect.lean); spec: relations between what is written and the items (Udl/CollectSpec.lean) | each conversion succeeds with a result exactly when the relation holds; mutual induction over the meaning of types for the first pass |
| C68 | the templates of uniffi_bindgen/src/scaffolding with the exports of the macros (Udl/Scaffold.lean) and what the generators look up (Udl/ScaffoldBind.lean); spec: Udl/ScaffoldSpec.lean | induction over types for the C types; per item, what is looked up fits an export; uniqueness of types (C67) ties traits to their owner |
| C69 | how the derives and the templates of the bindings write and read enums and errors, and the names counted as errors (Errors/Format.lean); spec: Errors/Spec.lean | case analysis on declarations gives the exact set of disagreements; then the wire theorems of C01 and C12-C15 |
| C70 | the layout oracle of the Kotlin JNI generator and the offsets taken from it (Jni/Types.lean, Jni/Layout.lean); spec: Jni/LayoutSpec.lean | induction on definitions in sorted order (C45) and on fields: layouts stay good and grow |
| C71 | the FFI type oracle, the allocation of enum arguments, and taking enums and records apart (Jni/FfiTypes.lean) | counting: the list of an enum has each FFI type at least as often as each variant needs it; `swap_remove` is a permutation; totality from C45 |
| C72 | lowering and lifting of numbers, optional numbers, durations, instants (Jni/Simple.lean) and of strings as modified UTF-8 (Jni/Strings.lean) on both sides | arithmetic of casts; case analysis; induction over the text |
| C73 | native memory as blocks (buffers with bytes that may be unwritten, texts, boxes), undefined behaviour as an explicit error (Jni/Memory.lean); write, read, lower and lift of both sides for every type, calling each other (Jni/Values.lean) | whatever is written or lowered can be read or lifted by either side from any later memory that has the same bytes and blocks: joint induction over the nesting |
| C75 | one interface as a transition system: allocations with strong counts, the handle map of Kotlin, Kotlin objects with flag and cleaner, handles in use by calls; every counted reference is recorded with its holder (Jni/Objects.lean) | invariant: every strong count is the number of recorded references, and every reference knows the object behind it; with a list of references that are counted but held by nobody, for the states in the middle of a step |
| C76 | one call as a transition system: the loop of Kotlin and poll step by step, the scheduler under its mutex, threads that wake, strong count, global references and the state of the current continuation (Jni/Async.lean) | invariants over all reachable states (Jni/AsyncLemmas.lean, Jni/AsyncLog.lean): the current continuation is in exactly one place, the strong count is the number of holders; a measure that every step of generated code decreases |
| C77 | the loops over symbols and exports for each format, as functions of what goblin gives and of the bytes of the file (Meta/Extract.lean); where the formats say a symbol is (Meta/ExtractSpec.lean) | induction over the symbols: the items read so far are those of the names seen so far; the readers ignore what follows an item (C40) and read what was emitted (C39) |
| C78 | merge_toml on nested tables, get_config over a file system, from_file on the parsed file, layers of paths (Gen/Config.lean); what is at a path of keys (Gen/ConfigSpec.lean) | induction over paths of keys and over tables: after a merge each key has the later value, merged if both are tables |
| C79 | the search with its stack, set of seen names and maps of features (Gen/Sources.lean); what is needed and asked for (Gen/SourcesSpec.lean) | invariant of the search: all variables are functions of the names seen, which are closed up to the stack; a measure that decreases |
| C80 | signatures and arguments (Jni/CallbackSig.lean), names and values after errors (Jni/Dispatch.lean), calls with the state of a thread (Jni/Callback.lean), async calls (Jni/CallbackAsync.lean); what Rust should see is in the files named Spec | reading descriptors back; induction on programs that call back and forth; invariant over interleavings of async calls |
| C81 | the parsers of weedle2 with their combinators, over an abstract input, and the basic parsers for characters (Udl/Parse.lean); how definitions are written is in Udl/TextSpec.lean, which does not refer to the parser | the grammar run on tokens gives the definitions (Udl/TextTok*.lean, induction on the way a file is written); running it on text does what running it on the tokens does (Udl/TextComm.lean, TextChar.lean) |
| C82 | the members that each template writes, the members that each language adds, and what the operators then do (Gen/TraitOps.lean); what Rust promises and which types follow Rust is in Gen/TraitOpsSpec.lean | decision logic over languages and kinds, for every implementation and all values; the operators that Swift derives from `<` and the hash codes follow from the laws of Rust |
| C83 | heck's split into words and its four cases, the keyword lists and the functions that each generator applies to names (Gen/Names.lean); what each language accepts and what names in the style of Rust are is in Gen/NamesSpec.lean | the words of a name are determined by its snake case, and those of camel case up to words that begin with a digit; legality is decided by the first letter or digit and the keyword lists |
| C84 | textwrap's `indent` and `dedent`, the filters for doc comments of the three generators and the functions that read doc comments from Rust and UDL (Gen/Docs.lean); nested comments, long strings of Python and their values are in Gen/DocsSpec.lean | after escaping no asterisk stands next to a slash, and indenting and dedenting keep it so; in Python three quotes never stand unescaped, and the last character before the end is a newline |
| C85 | values of a dynamic language, the generated `check_lower`, `write` and `lower` of Python, `coerce_rb`, `lower_rb` and the writers of Ruby (Dyn/Model.lean); what a value means and how Rust expects it are in Dyn/Spec.lean | induction on the depth: what is written for a value that passed the check is the encoding of a value of Rust that it means; conversely by induction on the value of Rust |
| C86 | trees of nodes, `visit`, `try_visit`, `has_descendant` and the check of types with its fuel, printing with a filter, `MapNode` for derived and built-in types, lists of passes (Pipe/Model.lean); the tree of the first pass and its searches (Pipe/Initial.lean); parts of a tree are named by paths in Pipe/Spec.lean | induction on trees: what is visited is the list of parts at paths; the check of types is reachability, for any order, by a measure on the types not seen yet; rebuilding by induction with the first failure in reading order |
| C87 | `iter_checksums` over what a `ComponentInterface` holds, `checksums` of the pipeline over its tree, the comparisons when bindings are loaded (Pipe/Compared.lean, Pipe/Initial.lean) | membership in what is compared from C66 for Kotlin and Swift and from C86 for Python; loading by induction on the comparisons |
| C88 | the arguments of attributes, the attributes of members, signatures, `impl` blocks, traits, structs and enums as trees (Export/Model.lean), against what is written (Export/Spec.lean) | exact descriptions of what each parser accepts by induction on what is written, joined member by member; `Self` by induction on types; sorting of built-in traits by uniqueness of sorted lists |
| C89 | the attribute parsers and metadata of the derive macros (Src/Derive.lean) against what is written (Src/DeriveSpec.lean), and the readers of sources of C65 | exact acceptance by induction on the arguments, which are merged in a lawful way; the readers accept by an invariant kept along the arguments, and what they read is known from C65 |
| C90 | the names of conversion functions, the definitions that templates make and the calls they contain (Jni/Calls.lean) against the conversions that exist for each type (Jni/CallsSpec.lean) | names are injective in kind and number, types are injective in numbers, so that all lists are without duplicates; membership by cases on definitions |
| C91 | the Kotlin names of types, the signatures made from them, the variables and their uses (Jni/Lookup.lean) against the descriptors of Kotlin types (Jni/LookupSpec.lean) | cases on the type without its boxes and options; what is left of question marks shows in the signature; a name with a package is not in the tables because it ends in a backtick; variables are without duplicates because numbers are |
| C92 | the declarations and the exported functions with their parameters (Jni/Natives.lean) and results (Jni/NativeResults.lean) against symbol names, C types and how values are passed by the JNI specification (Jni/NativesSpec.lean, Jni/NativeResultsSpec.lean) | declarations and functions are paired list by list; names are split in a word and a number, which are injective; results are numbered in base 1000000000 |

## Trusted base

* Lean 4.33.0 kernel. Theorems use at most the standard axioms `propext`,
  `Classical.choice`, `Quot.sound`. No axiom is added; no `sorry`, `native_decide`, `bv_decide`.
* The reading of the Rust, Kotlin, Swift, Python and Ruby sources into Lean definitions. Nothing
  checks it by machine; each definition cites the lines it stands for.
* The semantics of external code the sources call: `bytes::Buf/BufMut`, `std` collections,
  `Mutex` giving mutual exclusion, atomics being sequentially consistent, `catch_unwind`.
* The assumptions in the next sections.

### Axioms of each theorem

<!-- axioms -->
Printed by `#print axioms` for every theorem in `MANIFEST.json` (781 theorems). Theorems not named here depend on
`propext`, `Classical.choice` and `Quot.sound` (604 theorems).

* no axiom: C28_complete_reports, C50_python_names_broken, C72_option_bool, C72_option_f64_nan_broken, C78_jni_crate_roots_broken, C86_passes, C87_python_sources_broken
* `propext`: C18_null_empty, C19_twice_is_undefined, C20_internal_message_unguarded, C20_message_panic, C20_rust_call, C20_try_rust_call, C21_all_lift, C21_first_failure, C21_lift_panic, C28_lower_panics, C28_result, C31_kotlin_hangs, C31_python_hangs, C38_types_kept_apart, C42_ignored, C42_interface_distinct, C46_custom_missed, C46_missed, C47_legacy_broken, C48_iter_partial, C48_iter_skips_box, C48_iter_sound, C48_names_and_shape, C48_rename_partial, C48_rename_shape, C48_rename_skips_box, C55_box_broken, C61_use_accepted, C61_use_self_broken, C66_rust_name, C67_builtin_shadows, C67_custom_order, C67_doc_lost, C67_enum_and_error, C67_enum_traits_dropped, C67_panics, C67_same_name_callbacks, C67_same_name_functions, C67_second_throws_ignored, C67_throws_any_type, C67_variant_marks_ignored, C69_python_not_raised_broken, C69_udl_callback_errors_read, C70_empty_item_broken, C70_other_crate_broken, C70_tangled_broken, C72_option_f32, C72_option_f64_partial, C75_collected_during_call_broken, C75_destroy_during_call_broken, C75_fake_object_broken, C75_use_after_destroy_broken, C76_future_outlives_call_broken, C76_inline_deadlock_broken, C76_null_result_broken, C78_old_form, C78_other_type_broken, C80_abort_broken, C80_frames_broken, C80_pending_broken, C80_result_unique, C82_builds_broken, C82_dropped_broken, C82_jni_symmetry_broken, C82_jni_variant_broken, C82_kotlin_eq_without_hash_broken, C82_kotlin_object_eq_without_hash_broken, C82_other, C82_other_type_broken, C82_ruby_variants_broken, C82_swift_eq_without_hash_broken, C82_swift_error_text_broken, C85_ruby_float_broken, C88_cfg_attr_broken, C88_confused_broken, C88_default_bare_broken, C88_default_twice_broken, C88_self, C88_trait_impl_broken, C88_trait_no_async_broken, C88_trait_runtime_broken, C88_two_attributes_broken
* `Quot.sound` and `propext`: C12_python_time_broken, C13_kotlin_time_broken, C15_ruby_time_broken, C17_failed_reserve_double_free, C18_alloc, C18_from_bytes, C18_inconsistent_iff, C18_vec_round_trip, C20_exclusive, C23_unexpected, C24_unknown_code, C25_bounded, C27_sticky, C31_reports, C31_reports_once_partial, C31_reports_once_python_ruby, C35_foreign_only_confused, C36_argument_unprotected, C37_exact, C41_library_checksum, C41_same_function, C47_legacy_partial, C50_arguments, C51_foreign_bytes, C55_sound, C59_integer, C61_builtin_panics, C61_private_broken, C61_raw_broken, C61_self_broken, C61_use, C62_cache_broken, C62_function_glob_broken, C62_function_module_broken, C62_nested_broken, C62_private_broken, C62_shadow_broken, C63_arg, C63_bytes_broken, C63_cycle_reported, C63_meta, C63_parameters_broken, C63_return, C63_trait_broken, C69_exception_iff, C69_namesake_broken, C69_python_exception_iff_partial, C69_sends_message_iff, C69_thrown_plain_enum_broken, C69_udl_enum_thrown_by_macro_broken, C71_unit_field_broken, C72_string_to_kotlin, C73_nested_option_broken, C75_can_clean, C76_bounded, C76_no_busy_loop, C76_no_lost_wakeup, C76_references, C76_safe, C78_crate_roots, C78_file, C78_merge, C78_merge_fails, C78_priority, C80_async_args_broken, C80_async_cancel_broken, C80_async_ends, C80_async_launch_broken, C80_async_pending_broken, C80_pointer, C82_debug_partial, C82_display_partial, C82_hash_partial, C82_hash_range, C82_keys_partial, C82_order, C83_spelling, C83_spelling_types, C84_dedent, C84_python_end, C84_python_none, C84_python_text_partial, C84_rust_partial, C84_udl, C85_ruby_accept, C85_ruby_arg_partial, C87_load, C87_python_load_partial
<!-- /axioms -->

## What is modelled

| part of /repo | in lean/Verif | how much |
|---|---|---|
| uniffi_core/src/ffi_converter_impls.rs, ffi_converter_traits.rs, code generated by uniffi_macros/src/{record,enum_,custom}.rs for wire data | Wire/Rust, Wire/Types | every builtin type, records, enums, errors, flat errors, custom types, handles; `Box` and `Arc` |
| templates of Python, Kotlin, Swift and Ruby for wire data | Wire/Foreign* | read, write, check functions; timestamps and durations of Swift in Wire/SwiftTime.lean, on doubles as rationals with 53 bits (Wire/Double.lean; exponents are not bounded, no infinities, no NaN) |
| uniffi_core/src/ffi/{rustbuffer,foreignbytes}.rs, buffer builders of Python and Ruby, Kotlin sizes | Buffer/* | complete; memory is a heap of allocations |
| uniffi_core/src/ffi/rustcalls.rs, uniffi_macros/src/export/scaffolding.rs, status checks of the four languages, ffi/callbackinterface.rs | Call/* | calls both ways, with panics |
| uniffi_core/src/ffi/ffiserialize.rs | Call/FfiBuffer | complete |
| uniffi_core/src/ffi/rustfuture/*, oneshot.rs, ffi/foreignfuture.rs, Async templates | Async/* | all lock regions and atomics as steps; drivers of the languages; foreign futures |
| uniffi_core/src/ffi/handle.rs, Arc handles, HandleMap templates, Kotlin object wrapper | Handles/* | complete at the level of atomic steps |
| uniffi_core/src/metadata.rs, uniffi_meta/src/{metadata,reader,types,group,ffi_names,lib}.rs, metadata expressions in uniffi_macros | Meta/* | all item kinds, encoder, reader, grouping, symbol names |
| uniffi_internal_macros/src/checksum.rs, checksum functions | Checksum/* | byte streams of all items, FNV |
| uniffi_macros scaffolding signatures, uniffi_bindgen/src/interface/ffi.rs, callbacks.rs and the pipeline's FFI types | Abi/* | C types of functions, vtables and their order |
| uniffi_bindgen/src/pipeline/general/{sort, enums, infer_recursive_enums, callable, default, types}.rs, interface/{universe, rename, visit_mut, exclude}.rs, names and defaults in the generators | Gen/* | see C45–C48, C54–C60 |
| uniffi_bindgen/src/macro_metadata/extract.rs | Meta/Extract | all formats; parsing of the files by goblin is left out |
| uniffi_bindgen/src/{global_config,bindgen_paths}.rs, merge_toml | Gen/Config | merging, layers, sections of the file; parsing TOML is left out |
| uniffi_bindgen/src/cargo_metadata.rs | Gen/Sources | search for crates, features, roots; running Cargo and the name of the cdylib are left out |
| UniffiTraitImpls.py, UniffiTraitImpls.rb, macros.kt:187-216, macros.swift:211-254, UniffiTraitMethods.kt, conformance lists of gen_swift/mod.rs | Gen/TraitOps.lean | members for equality, order, hash codes and text, and what the languages add |
| python/pipeline/names.rs, name filters of gen_kotlin/mod.rs, gen_swift/mod.rs, gen_ruby/mod.rs, uniffi-bindgen-kotlin-jni/src/pipeline/names.rs, jni_method_name in callables.rs, heck 0.5 | Gen/Names.lean | names of functions, arguments, fields, types and variants in the bindings |
| docstring filters of gen_kotlin/mod.rs, gen_swift/mod.rs and python/filters.rs, doc comments in uniffi_macros/src/util.rs and uniffi_udl, textwrap's indent and dedent | Gen/Docs.lean | documentation in the bindings |
| checking, converting and writing arguments: python/templates/*.py, gen_ruby/mod.rs (`coerce_rb`, `lower_rb`), ruby/templates/{Helpers,RustBufferBuilder,macros}.rb | Dyn/Model.lean | arguments of any type |
| walking and rebuilding trees: uniffi_pipeline/src/*, `derive(Node)` and `derive(MapNode)` without attributes, the searches of pipeline/general/* | Pipe/Model.lean, Pipe/Initial.lean | nothing is overlooked or changed |
| comparing checksums: `iter_checksums`, pipeline/general/checksums.rs, the checks in the templates of Kotlin, Swift and Python | Pipe/Compared.lean, Pipe/Initial.lean | which libraries are refused |
| `#[uniffi::export]`: uniffi_macros export/attributes.rs, export/item.rs, fnsig.rs, decisions of export.rs, scaffolding.rs, trait_interface.rs, callback_interface.rs | Export/Model.lean | what is refused and what is exported; not the tokens generated |
| Derive macros: uniffi_macros record.rs, object.rs, enum_.rs, error.rs, util.rs | Src/Derive.lean | what is accepted and the metadata; not the generated impls |
| uniffi-bindgen-kotlin-jni/src/pipeline/{types,callables,packages,root}.rs and templates, names of conversion functions | Jni/Calls.lean | which are defined and which are called |
| uniffi-bindgen-kotlin-jni/src/pipeline/{types,ffi_types,root}.rs, looking up Kotlin functions | Jni/Lookup.lean | signatures, variables and their uses |
| uniffi-bindgen-kotlin-jni/src/bindings/templates/shared/Scaffolding.kt and the functions exported for it in scaffolding/templates | Jni/{Natives,NativeResults}.lean | names, parameters and result types; not bodies |
| uniffi_bindgen/src/pipeline/initial/*, macro_metadata/ci.rs, interface/mod.rs (adding items) | Gen/Assemble* | both ways from metadata items to an interface; not the set of known types |
| weedle2/src, uniffi_udl/src | Udl/* | the parser from characters to definitions; integers and default literals; from parsed definitions to items |
| uniffi-bindgen-kotlin-jni/src/pipeline/{ffi_buffer,ffi_types,context,records,enums,compounds}.rs | Jni/* | layouts, offsets, arguments, native memory, values, object lifetime, async calls of Rust functions and methods implemented in Kotlin (Jni/Callback*); names of generated functions are left out |
| uniffi_macros/src/error.rs, ErrorTemplate and EnumTemplate of the bindings | Errors/* | format of enums and errors; an error inside another type is read as an enum |
| uniffi_bindgen/src/scaffolding | Udl/Scaffold*.lean | which functions the generated Rust code exports, not its text |
| uniffi_parse_rs/src | Src/* | use statements, name lookup, public paths, types, conditions, attributes, items, metadata |

## What is not modelled

* Parsing of Rust text into syntax trees (`syn`), of TOML (`toml`, `serde`), of object files
  (`goblin`), and of Cargo metadata.
* Rendering of templates (`askama`), formatting of generated code.
* Compilers and runtimes of the languages: type checking of generated code, garbage collection order (it is a
  nondeterministic step), float formatting; NaN payloads are assumed to be kept.
* Running out of memory; `Vec::with_capacity` with a length from the wire is taken to succeed. `usize` has 64 bits.
* Weak memory: atomics are sequentially consistent. Poisoned mutexes.
* The text of error messages, except where C20 and C21 speak of it. `{:?}` escaping.
* wasm scaffolding, the parts of `uniffi-bindgen-kotlin-jni` not in the table, the command line, `uniffi_build`, `uniffi_testing`.

## What was found

Each line is a place where the code does not do what the property says, with the theorem that shows it, if there is one.

Wire data:
* Instants less than a second before the epoch come back mirrored: `C05_system_time_broken`, `C12_python_time_broken`,
  `C13_kotlin_time_broken`, `C15_ruby_time_broken`. Writing the instant of second -2^63 panics: `C05_system_time_write_panics_iff`.
* Swift holds times in doubles. A second and two nanoseconds come back one nanosecond shorter, 15 ns come back as 14
  (`C14_duration_broken`, `C14_duration_small_broken`); durations of 2^64 - 1 seconds end the program when they are written
  back (`C14_duration_long_broken`); an instant in 2025 moves by 165 ns (`C14_time_broken`); instants less than a second
  before 1970 are mirrored (`C14_time_mirrored_broken`).
* `Some(None)` comes back as `None`: `C12_python_nested_option_broken`, `C13_kotlin_nested_option_broken`,
  `C15_ruby_nested_option_broken`.
* Python cannot read maps whose keys are records: `C12_python_record_key_broken`.
* Kotlin takes any nonzero byte for `Some` and `true`: `C13_kotlin_tag_lenient`.
* Ruby reads durations of 2^63 s and more as negative: `C15_ruby_duration_broken`; also `u8` above 127.
* Lifting a `String` argument does not check UTF-8, reading it from a buffer does.

Calls and buffers:
* The message of an internal error is lowered outside `catch_unwind`: `C20_internal_message_unguarded`.
* A declared error that cannot be lowered escapes from Kotlin, Swift and Ruby callbacks: `C23_contract_broken`.
* A failed lift of one argument leaks the buffers of later ones. Swift leaks the buffer of a failed lift.
* If `reserve` fails in Python, `discard` frees the buffer a second time.

Async:
* An async foreign method whose value cannot be lowered never completes: `C31_python_hangs`, `C31_kotlin_hangs`.
* A result sent after the Rust future was dropped leaks its buffer.
* `wake_by_ref` inside the user's `poll` calls the foreign continuation while the future is locked.

Handles:
* A trait for foreign implementations only, implemented in Rust, gets handles of the wrong kind: `C35_foreign_only_confused`.
* Kotlin lowers object arguments without the guard against `destroy`: `C36_argument_unprotected`.

Metadata, symbols and ABI:
* Reading truncated metadata panics: `C40_truncation_panics`.
* Symbols of different items can be equal: `C44_underscore_collision`, `C44_case_collision`, `C44_crate_collision`.
* `&Vec<u8>` arguments have different C types on both sides: `C52_vec_broken`; Ruby also for `&[u8]`: `C52_ruby_slice_broken`.
* A Python trait method named `_uniffi_free` breaks the table: `C50_python_names_broken`.

Generators:
* Inference of recursive enums misses members, depending on the order: `C46_missed`; and custom types: `C46_custom_missed`.
* Discriminants of 2^63 and more: `C47_legacy_broken`.
* `Box` is not looked into: `C48_iter_skips_box`, `C48_rename_skips_box`, `C54_box_broken`, `C55_box_broken`, `C57_box_broken`.
* Canonical names are equal for different types: `C56_keys_broken`, `C56_modules_broken`.
* Renaming misses places: `C57_init_symbol_broken`, `C57_owner_broken`, `C57_places_broken`, `C57_callback_key_broken`,
  `C57_external_broken`.
* Defaults: strings are not escaped (`C58_quote_broken`, `C58_backslash_broken`, `C58_template_broken`), `1.`
  (`C58_point_broken`), `[]` for maps (`C58_collection_broken`), smallest integers in Kotlin (`C58_kotlin_min_broken`), UDL
  values out of range (`C59_range_broken`), `0X` (`C59_upper_broken`).
* Leaving out a trait method shifts the callback table: `C60_table_broken`; external types: `C60_external_broken`.

Sources:
* Name lookup depends on the history with cyclic globs: `C61_order_broken`; `self`, raw names, private items and builtins:
  `C61_self_broken`, `C61_use_self_broken`, `C61_raw_broken`, `C61_private_broken`, `C61_builtin_panics`.
* Public paths: `C62_function_glob_broken`, `C62_function_module_broken`, `C62_private_broken`, `C62_shadow_broken`,
  `C62_nested_broken`, `C62_cache_broken`.
* Types: `C63_alias_loops`, `C63_custom_loops`, `C63_parameters_broken`, `C63_trait_broken`, `C63_bytes_broken`.
* Conditions: `C64_unix_broken`, `C64_nested_broken`, `C64_use_broken`, `C64_struct_broken`, `C64_impl_broken`.
* Metadata: `C65_discriminant_broken`, `C65_doc_broken`, `C65_default_broken`, `C65_constructor_broken`,
  `C65_trait_impl_broken`.
* Assembling: `C66_orphans_broken` (members of absent types are dropped without a word for Python, refused
  for the others), `C66_same_name_broken`, `C66_rust_name_broken`, `C66_custom_name_broken`,
  `C66_two_namespaces_broken`.
* Interface definition files: an unknown error type of a constructor panics (`C67_panics`), traits of plain enums
  are forgotten (`C67_enum_traits_dropped`), further `Throws` are ignored (`C67_second_throws_ignored`), any type can
  be thrown (`C67_throws_any_type`), a second namespace block removes documentation (`C67_doc_lost`), types named
  like built-in ones cannot be used (`C67_builtin_shadows`), duplicates that are not refused
  (`C67_same_name_functions`, `C67_same_name_callbacks`), marks without effect (`C67_variant_marks_ignored`), a
  conflict that is not noticed (`C67_enum_and_error`), and the order of custom types (`C67_custom_order`).
* Rust code generated from interface definition files: the methods of built-in traits are looked up by all bindings
  but not exported for trait interfaces (`C68_trait_interface_unserved`), for enums used as errors
  (`C68_error_unserved`) and, because a template asks for `Debug` twice, for `Display` of enums
  (`C68_enum_display_unserved`, `C68_enum_debug_needs_display`); loading the bindings fails. Async methods of callback
  interfaces get the table of a method that is not async (`C68_async_callback_differs`). Renaming a method of a
  callback interface makes the Kotlin and Swift bindings compare a checksum the library does not return
  (`C68_renamed_callback_checksum`). A file that is accepted can make the generator panic
  (`C68_throws_record_panics`).
* Errors: an enum without fields that Rust treats as an ordinary enum, while the bindings count its name as an error,
  never arrives: Rust sends the variant number and the bindings wait for a message (`C69_misread_lost`). That happens
  to a `derive(uniffi::Enum)` type that is thrown (`C69_thrown_plain_enum_broken`), in Kotlin, Swift and Ruby to an
  enum that is never thrown but has a namesake among the errors of another crate (`C69_namesake_broken`), and to an
  enum of the UDL file thrown by a function exported with a macro (`C69_udl_enum_thrown_by_macro_broken`). In Python
  an enum thrown only by another crate is not an exception (`C69_python_not_raised_broken`).
* Kotlin JNI buffers: an error that is sent as a message is written outside its place when it is inside another value
  (`C70_message_error_broken`); a list of items of size 0 divides by zero when it is read
  (`C70_empty_item_broken`); a type of another crate is not found when the other namespace comes earlier
  (`C70_other_crate_broken`); and a record can be sorted before a record it contains because the sort follows the
  types of methods too (`C70_tangled_broken`).
* Kotlin JNI arguments: a record with one argument that does not belong to its first field (the first field is a record
  without fields) is passed as nothing (`C71_unit_field_broken`); the generated code does not compile.
* Kotlin JNI simple values: the optional `f64` NaN with all bits set arrives as the number 2.1e-314
  (`C72_option_f64_nan_broken`: the constant of the 32-bit NaN is used). A duration of 2^63 seconds or more arrives as a
  negative duration (`C72_long_duration_broken`). An instant less than a second before 1970 arrives as the instant the
  same time after 1970, in both directions (`C72_just_before_epoch_broken`).
* Kotlin JNI values: Kotlin counts the bytes of a list with 32 bits, so a list of 178956971 strings gets a buffer of 8 bytes
  and Rust code writes past its end (`C73_big_list_broken`). `Some(None)` arrives in Kotlin as null
  (`C73_nested_option_broken`). An optional object whose handle is negative as a signed number arrives in Kotlin as
  null, because Kotlin asks for `handle > 0` where Rust asks for `!= 0` (`C73_negative_handle_broken`).
* Kotlin JNI objects: methods look neither at the flag that `destroy` sets nor keep the object alive, so Rust uses freed
  memory when an object is used after `destroy` (`C75_use_after_destroy_broken`), destroyed by another thread during a
  call (`C75_destroy_during_call_broken`), or collected during its last call (`C75_collected_during_call_broken`, no
  fault of the user). Objects made without a handle pass a null pointer (`C75_fake_object_broken`). A Kotlin object
  that Rust gives back never comes home as itself (`C75_identity_broken`).
* Kotlin JNI async calls: a function that returns `None` ends with a `NullPointerException`, because of `value!!`
  (`C76_null_result_broken`). A waker calls the continuation while it holds the mutex around the scheduler, so a coroutine
  that is resumed there and then polls again and waits for that mutex forever (`C76_inline_deadlock_broken`). Freeing the
  handle does not drop the future if somebody has a waker; a future that keeps its own waker is never dropped
  (`C76_future_outlives_call_broken`; uniffi_core drops it at once).
* Extraction of metadata: sections of Mach-O files are sorted by address before they are indexed by the number of a section,
  which counts in the order of the file (`C77_macho_order_broken`). Members of an archive are looked up by name, so if two have
  the same name the items of one are missing (`C77_archive_names_broken`). An undefined ELF symbol with the name of an item
  makes extraction fail (`C77_undefined_broken`). Symbols are made of upper case names joined by `_`, so different items can
  have the same one (`C77_symbols_clash_broken`; the build fails).
* Configuration: the manual says that `[crate-roots]` overrides locations of crates, but the generator for Kotlin with JNI adds
  it after Cargo's layer, which wins (`C78_jni_crate_roots_broken`). It also says that scalars are replaced; one of another type
  is an error (`C78_other_type_broken`).
* Crates parsed from sources: features that are implied by other features (`full = ["net"]`) are not enabled, so items behind
  them are missing from the bindings (`C79_implied_features_broken`). A crate given by crate name (`my_crate`, as the manual
  says) instead of package name (`my-crate`) is parsed without its features (`C79_spelling_broken`), and twice if one of its
  dependencies needs it for tests (`C79_twice_broken`). Of several versions of a package only the last one is parsed
  (`C79_versions_broken`). A package called like the library of another one takes its place when configuration and UDL are
  looked for (`C79_root_broken`).
* Methods implemented in Kotlin, called through JNI: the JNI function for a method that returns a boolean is the one for bytes
  (`C80_boolean_broken`), and async methods that return one FFI value are called as if the Kotlin function returned it
  (`C80_async_function_broken`). An exception whose `getMessage` throws stays pending (`C80_pending_broken`); in async methods
  this makes Kotlin use the sender of the channel a second time, after it was freed (`C80_async_pending_broken`). A panic of
  user code that lifts a returned value leaves a local frame (`C80_frames_broken`) or ends the process (`C80_abort_broken`),
  depending on the type. If a coroutine can not be launched, its channel and arguments leak (`C80_async_launch_broken`).
  Dropping the Rust future does not cancel the coroutine, although a comment says so (`C80_async_cancel_broken`), and if the
  object goes away before the coroutine begins, the arguments leak (`C80_async_args_broken`).
  If such an async method also throws, the Kotlin function returns a value like `0` from a block without result, which does
  not compile (`C80_after_error_broken`).
* Parsing of UDL text: a file whose last line is a `//` comment is refused, because the end of the line is removed before
  parsing (`C81_last_comment_broken`); so is a file of comments only (`C81_only_comment_broken`), a file that begins with a
  comment before documentation (`C81_comment_then_doc_broken`), and a comment between lines of documentation
  (`C81_comment_in_doc_broken`). A type whose name WebIDL reserves, like `Error`, can be defined but not used unless an
  underscore is put before it (`C81_name_broken`).
* Exported traits: a record or object that exports `Eq` without `Hash` has equal values with different hash codes in
  Kotlin and Swift (`C82_kotlin_eq_without_hash_broken`, `C82_kotlin_object_eq_without_hash_broken`,
  `C82_swift_eq_without_hash_broken`). In the JNI bindings variants with fields ignore exported `Eq`, `Hash` and `Display`
  (`C82_jni_variant_broken`), and equality is not symmetric (`C82_jni_symmetry_broken`). In Ruby values of different
  variants are never equal (`C82_ruby_variants_broken`). Traits of flat enums, errors and records without fields are
  dropped with no message (`C82_dropped_broken`), and the text of Swift errors is not used (`C82_swift_error_text_broken`).
  Some combinations do not compile (`C82_builds_broken`). Records compared with a value of another type raise in Python and
  Ruby, or are equal to it when they have no fields (`C82_other_type_broken`).
* Names: names without letters become empty (`C83_underscores_broken`), names like `_1` begin with a digit
  (`C83_digit_broken`), `in_` becomes the keyword `in` in Ruby (`C83_ruby_in_broken`), types called `Any` are not quoted
  in Swift (`C83_swift_any_broken`), nor is the variable for borrowed bytes whose argument is a keyword
  (`C83_swift_bytes_broken`). `foo_1` and `foo1` are one function in Kotlin and Swift (`C83_apart_broken`), the errors
  `FooError` and `FooException` one class in Kotlin (`C83_kotlin_errors_broken`), an argument `self_` is a second `self`
  in Python (`C83_python_self_broken`), and `Foo::bar_baz` and `FooBar::baz` share a native function in the JNI bindings
  (`C83_native_broken`).
* Documentation: backslashes are not escaped in Python, so that a text with `C:\users` is a syntax error and `\n` a new
  line (`C84_python_backslash_broken`). Doc comments in Rust lose the indentation of each line, which breaks code in
  them; those in UDL files keep it (`C84_rust_indent_broken`).
* Values of any type: results of methods that are implemented in Python are not checked, so that 300 for an `i8` arrives
  as 44 (`C85_python_result_broken`); 2 is a truth value as an argument but a byte that Rust refuses in a list
  (`C85_python_bool_broken`); a `Box<String>` argument gets four characters too many in front and a `Box<i32>` argument is
  passed as a buffer (`C85_python_box_broken`). In Ruby `false` for an optional truth value arrives as `None`
  (`C85_ruby_option_bool_broken`), 1.5 for an integer as 1 (`C85_ruby_float_broken`), and for a value that is no variant of
  an enum nothing is written, so that Rust takes the bytes of the next field for it (`C85_ruby_enum_broken`).
* Walking the description of an interface: looking for a leaf type, such as `visit(|s: &String| ..)`, always panics, although
  names are strings (`C86_leaf_broken`); the `pipeline` command with a filter by type prints no node without children, such
  as `Type::UInt8` (`C86_print_broken`).
* Comparing checksums: methods of records and enums are exported with checksum functions, which no bindings compare
  (`C87_record_broken`, `C87_python_record_broken`); those of callback interfaces are compared by Kotlin and Swift but not
  by Python, where a comment says that they have no checksums, though the reader of metadata sets them
  (`C87_python_callback_broken`). Bindings for Python made from sources load a library with another contract version, which
  Kotlin and Swift refuse (`C87_python_sources_broken`). `iter_checksums` skips methods of callback interfaces without a
  name for the checksum function, but there are none.
* Export attributes: of two `uniffi::method(...)` attributes the arguments of the first are lost
  (`C88_two_attributes_broken`); `method` then `constructor` is taken and the other order refused (`C88_confused_broken`);
  under `cfg_attr` an attribute with arguments is passed over and a bare one is taken whatever the condition
  (`C88_cfg_attr_broken`). A second default value for an argument replaces the first (`C88_default_twice_broken`), and a name
  alone in `default(...)` is only taken at the very end (`C88_default_bare_broken`). `async_runtime` on a method of a trait
  does nothing (`C88_trait_runtime_broken`), nor on a trait without async methods, where an `impl` block is refused
  (`C88_trait_no_async_broken`). `export(name = "B") impl T for A` puts the methods on `B` and records that `A` implements `T`
  (`C88_trait_impl_broken`).
* Derive macros and the reader of sources: `#[uniffi(default, name = "a")]` (`C89_default_first_broken`), `with_try_read`
  (`C89_with_try_read_broken`), `#[repr(C)]` (`C89_repr_broken`) and the value `i64::MIN` (`C89_smallest_broken`) compile, and
  sources with them are refused. `repr(u8, C)` loses the type that `repr(C, u8)` records. The derive for errors records no
  type, the reader does (`C89_error_repr_broken`). `handle_unknown_callback_error` is refused although a comment says that it
  is allowed (`C89_unknown_callback_broken`). Some of what is read from sources does not compile
  (`C89_reader_lenient_broken`). For a field of a tuple with a name the macros record no original name, the reader an empty
  one; C65 now leaves such fields out.
* Kotlin with JNI: code generated for bytes inside a record, enum, custom type, option, list, map or set calls `write` and
  `read` functions that are generated nowhere (`C90_bytes_broken`). The same for a callback interface inside another value
  (`C90_callback_broken`), for a callback method that throws a flat error (`C90_throws_broken`), and for an argument that is
  an option of a record without fields (`C90_empty_broken`). In all four cases the generator reports nothing.
* Kotlin with JNI: Rust asks for a `lift` function with the wrong signature when a function returns an option of a custom
  type over a string (`C91_custom_broken`) or an option of an option, unless of a list, map or set (`C91_nested_option_broken`), and for a boxed string,
  bytes or optional `i32` (`C91_box_broken`: `Ljava/lang/Int;` is no class). A boxed number is found but called as if it
  returned an object (`C91_box_primitive_broken`).
* Kotlin with JNI: a box that occurs in two crates gets its native functions declared twice in one object, which Kotlin
  rejects (`C92_box_twice_broken`). `uniffiKotlinFutureComplete` is declared but exported nowhere; as nothing calls it, it
  does no harm (`C92_leftover_broken`). Not modelled: for a Rust name with letters outside ASCII the virtual machine looks
  for an escaped symbol (`_0` and four digits), but the name is exported as it is.
  Taking a number out of a box returns an object where Kotlin expects the number (`C92_into_inner_broken`).
