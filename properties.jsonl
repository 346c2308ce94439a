{"id": "C01", "title": "Wire round trip on the Rust side", "statement": "Serialising any value of any supported type (integers, floats, bool, string, duration, Option, Box, Vec, HashMap, HashSet, records, enums, custom types, object handles, arbitrarily nested and recursive) into a buffer and reading it back yields the same value and leaves exactly the bytes that followed it.", "quantifier": "every type built from the supported constructors and user-defined (possibly recursive) records and enums, every value of it whose collections fit an i32 count, every trailing byte string", "why_tests_cant": "the set of types and values is infinite and nested without bound; a test round-trips chosen values only", "anchors": ["uniffi_core/src/ffi_converter_impls.rs: String, Option, Vec, HashMap, HashSet, Duration, numeric impls", "uniffi_macros/src/enum_.rs: enum ffi converter", "uniffi_macros/src/record.rs", "uniffi_macros/src/custom.rs"]}
{"id": "C02", "title": "Reader safety on arbitrary bytes", "statement": "Reading a value of any type from any byte string never consumes bytes beyond the end, consumes a prefix only, and when it succeeds produces a well-formed value of that type (integers in range, strings valid UTF-8, enum variants that exist, field lists of the declared length).", "quantifier": "every type and every byte string, including hostile ones", "why_tests_cant": "all byte strings cannot be enumerated; a fuzz run samples them", "anchors": ["uniffi_core/src/ffi_converter_impls.rs", "uniffi_core/src/lib.rs: check_remaining", "uniffi_macros/src/enum_.rs"]}
{"id": "C03", "title": "Truncated encodings never decode", "statement": "No strict prefix of the encoding of a value decodes successfully as that type, and bytes placed after an encoding never change what is decoded.", "quantifier": "every type, every value, every proper prefix, every suffix", "why_tests_cant": "depends on all cut points of all encodings", "anchors": ["uniffi_core/src/ffi_converter_impls.rs", "uniffi_core/src/lib.rs: check_remaining"]}
{"id": "C04", "title": "Lifting consumes the whole buffer", "statement": "Lifting a buffer-passed value succeeds only if the buffer is exactly one encoding: any trailing junk is an error, and what lower produced always lifts to the same value.", "quantifier": "every buffer-passed type, every buffer content", "why_tests_cant": "quantifies over all buffer contents", "anchors": ["uniffi_core/src/ffi_converter_traits.rs: Lift::try_lift_from_rust_buffer, Lower::lower_into_rust_buffer", "uniffi_core/src/lib.rs: ffi_converter_rust_buffer_lift_and_lower"]}
{"id": "C05", "title": "SystemTime round trip", "statement": "Every SystemTime that is written is read back as the same instant. (The code breaks this for instants strictly between one second before the epoch and the epoch; the exact set of surviving instants is characterised.)", "quantifier": "every representable instant at nanosecond resolution", "why_tests_cant": "an infinite range of instants; existing tests use a few", "anchors": ["uniffi_core/src/ffi_converter_impls.rs: FfiConverter for SystemTime (lines 183-218)"]}
{"id": "C06", "title": "Duration round trip and hostile durations", "statement": "Every Duration is read back unchanged; reading arbitrary 12 bytes either gives the duration seconds + nanoseconds with carry, or panics exactly when the seconds overflow u64.", "quantifier": "every duration; every 12-byte input", "why_tests_cant": "2^96 inputs", "anchors": ["uniffi_core/src/ffi_converter_impls.rs: FfiConverter for Duration (lines 228-242)"]}
{"id": "C07", "title": "Malformed tags and lengths are rejected", "statement": "A boolean byte other than 0/1, an Option tag other than 0/1, an enum variant number outside 1..n, and a negative string, sequence, set or map length are always errors, wherever they occur first in the input.", "quantifier": "every tag/length value out of range, every following bytes", "why_tests_cant": "all 2^32 tags and all following bytes", "anchors": ["uniffi_core/src/ffi_converter_impls.rs: bool, Option, String, Vec, HashMap, HashSet", "uniffi_macros/src/enum_.rs"]}
{"id": "C08", "title": "Maps and sets are order independent and last write wins", "statement": "Whatever order a map or set is iterated in while being written, the reader rebuilds the same finite map or set; when an input repeats a key the last entry wins.", "quantifier": "every finite map/set, every iteration order, every input with repeated keys", "why_tests_cant": "hash iteration order is random; all permutations cannot be run", "anchors": ["uniffi_core/src/ffi_converter_impls.rs: HashMap (383-437), HashSet (478-525)"]}
{"id": "C09", "title": "Encodings are uniquely decodable", "statement": "Two different values of a type never have the same encoding, and no encoding is a strict prefix of another, so a concatenation of encoded arguments or fields is unambiguous.", "quantifier": "every type, every pair of values", "why_tests_cant": "pairs of values are infinite", "anchors": ["uniffi_core/src/ffi_converter_impls.rs", "uniffi_macros/src/record.rs"]}
{"id": "C10", "title": "Canonical encodings", "statement": "If bytes decode to a value, re-encoding the value gives back exactly the consumed bytes, for types not containing maps, sets, timestamps or durations.", "quantifier": "every byte string that decodes", "why_tests_cant": "all accepted byte strings", "anchors": ["uniffi_core/src/ffi_converter_impls.rs"]}
{"id": "C11", "title": "Writer limits", "statement": "Writing a value fails (panics) exactly when some string, sequence, map or set in it has more than i32::MAX elements (or an enum value is not one of the declared variants or a time is out of range); it never silently truncates a length.", "quantifier": "every value, without size bound", "why_tests_cant": "the boundary needs 2 GiB inputs", "anchors": ["uniffi_core/src/ffi_converter_impls.rs: i32::try_from(..).unwrap()"]}
{"id": "C12", "title": "Python and Rust agree on the wire format", "statement": "A value written by Rust is read by the generated Python code as the same value, and a value written by the Python code is read by Rust as the same value, for every type; compound types agree whenever their parts do (timestamps and durations are checked at Python's microsecond resolution).", "quantifier": "every type, every value, in both directions", "why_tests_cant": "interop tests use a handful of values per type", "anchors": ["uniffi_bindgen/src/bindings/python/templates/RustBufferTemplate.py", "uniffi_bindgen/src/bindings/python/templates/builtins/*.py", "uniffi_bindgen/src/bindings/python/templates/{Optional,Sequence,Map,Set,Record,Enum}Template.py", "uniffi_core/src/ffi_converter_impls.rs"]}
{"id": "C13", "title": "Kotlin and Rust agree on the wire format", "statement": "A value written by Rust is read by the generated Kotlin code as the same value, and a value written by the Kotlin code is read by Rust as the same value, for every type; compound types agree whenever their parts do.", "quantifier": "every type, every value, in both directions", "why_tests_cant": "interop tests use a handful of values per type", "anchors": ["uniffi_bindgen/src/bindings/kotlin/templates/*Helper.kt", "uniffi_bindgen/src/bindings/kotlin/templates/{Optional,Sequence,Map,Set,Record,Enum}Template.kt", "uniffi_core/src/ffi_converter_impls.rs"]}
{"id": "C14", "title": "Swift and Rust agree on the wire format", "statement": "A value written by Rust is read by the generated Swift code as the same value, and a value written by the Swift code is read by Rust as the same value, for every type; compound types agree whenever their parts do. Timestamps and durations, which are doubles in Swift, arrive up to the precision of a double, and what Swift writes for them is always something Rust can read.", "quantifier": "every type, every value, in both directions", "why_tests_cant": "interop tests use a handful of values per type", "anchors": ["uniffi_bindgen/src/bindings/swift/templates/*Helper.swift", "uniffi_bindgen/src/bindings/swift/templates/RustBufferTemplate.swift", "uniffi_bindgen/src/bindings/swift/templates/{Optional,Sequence,Map,Set,Record,Enum}Template.swift", "uniffi_core/src/ffi_converter_impls.rs"]}
{"id": "C15", "title": "Ruby and Rust agree on the wire format", "statement": "A value written by Rust is read by the generated Ruby code as the same value, and a value written by the Ruby code is read by Rust as the same value, for every type; compound types agree whenever their parts do (the code breaks this for u8 values above 127 and durations above i64::MAX seconds read back by Ruby).", "quantifier": "every type, every value, in both directions", "why_tests_cant": "interop tests use a handful of values per type", "anchors": ["uniffi_bindgen/src/bindings/ruby/templates/RustBufferStream.rb", "uniffi_bindgen/src/bindings/ruby/templates/RustBufferBuilder.rb", "uniffi_core/src/ffi_converter_impls.rs"]}
{"id": "C16", "title": "Kotlin pre-computed buffer size is sufficient", "statement": "The allocation size the Kotlin code computes for a value is never smaller than the number of bytes it then writes, so serialisation never overruns the buffer (in particular three bytes per UTF-16 unit always covers the UTF-8 form).", "quantifier": "every type and value, every Unicode string", "why_tests_cant": "all strings and nestings", "anchors": ["uniffi_bindgen/src/bindings/kotlin/templates/FfiConverterTemplate.kt", "uniffi_bindgen/src/bindings/kotlin/templates/StringHelper.kt", "uniffi_bindgen/src/bindings/kotlin/templates/*: allocationSize"]}
{"id": "C17", "title": "Incremental buffer builders never overrun", "statement": "The Python and Ruby buffer builders, which grow a Rust buffer by asking for extra room, never write past the capacity, and the finished buffer holds exactly the concatenation of everything written.", "quantifier": "every sequence of writes of any sizes", "why_tests_cant": "all write sequences", "anchors": ["uniffi_bindgen/src/bindings/python/templates/RustBufferTemplate.py: _UniffiRustBufferBuilder", "uniffi_bindgen/src/bindings/ruby/templates/RustBufferBuilder.rb", "uniffi_core/src/ffi/rustbuffer.rs: uniffi_rustbuffer_reserve"]}
{"id": "C18", "title": "RustBuffer operations preserve contents", "statement": "alloc gives zeroed bytes of the requested length, from_bytes copies the bytes, reserve keeps the contents and guarantees capacity for the requested extra bytes, conversion to and from a vector is lossless, and each fails exactly on an inconsistent buffer (null data with non-zero capacity or length, or length above capacity).", "quantifier": "every buffer state and every argument", "why_tests_cant": "all sizes and inconsistent states", "anchors": ["uniffi_core/src/ffi/rustbuffer.rs"]}
{"id": "C19", "title": "Buffer ownership: no leak, no double free", "statement": "Over any history of buffer calls in which the foreign side uses each buffer value once, every allocation made is released exactly once by the time no buffer is outstanding, and no operation touches a released allocation.", "quantifier": "every history of alloc/from_bytes/reserve/free/lift operations", "why_tests_cant": "all histories", "anchors": ["uniffi_core/src/ffi/rustbuffer.rs", "uniffi_core/src/ffi/ffidefault.rs"]}
{"id": "C20", "title": "Rust calls never unwind and report exactly one outcome", "statement": "Calling through rust_call returns normally for every behaviour of the called code; the status is success with the value, error with the serialized error, or unexpected error with the panic/internal message, and these are mutually exclusive; on any failure the return value is the type's default and the success status is left untouched on success.", "quantifier": "every closure outcome (value, declared error, internal error, panic with &str/String/other payload, panic inside message creation)", "why_tests_cant": "the closure is arbitrary", "anchors": ["uniffi_core/src/ffi/rustcalls.rs: rust_call, try_rust_call, rust_call_with_out_status"]}
{"id": "C21", "title": "Exported function call pipeline", "statement": "For an exported function the user code runs if and only if every argument lifts; arguments are lifted left to right, and the first failing argument is the one named in the error; a lift failure of the function's own error type surfaces as that typed error, any other as an internal error naming the argument.", "quantifier": "every argument list, every argument content, every function behaviour", "why_tests_cant": "argument lists and failures are unbounded", "anchors": ["uniffi_macros/src/fnsig.rs: lift_closure", "uniffi_macros/src/export/scaffolding.rs: gen_ffi_function", "uniffi_core/src/ffi_converter_impls.rs: LowerReturn for Result", "uniffi_core/src/ffi/rustcalls.rs: LiftArgsError"]}
{"id": "C22", "title": "Errors and results arrive in the right channel end to end", "statement": "For a function returning Result, the foreign caller observes a return value exactly when Rust returned Ok, the declared exception exactly when Rust returned Err, and an internal error exactly when Rust panicked or an argument failed to lift, with the same payload.", "quantifier": "every result, every binding language", "why_tests_cant": "all payloads and outcomes", "anchors": ["uniffi_core/src/ffi/rustcalls.rs", "uniffi_bindgen/src/bindings/python/templates/Helpers.py", "uniffi_bindgen/src/bindings/kotlin/templates/Helpers.kt", "uniffi_bindgen/src/bindings/swift/templates/Helpers.swift"]}
{"id": "C23", "title": "Foreign callback results are lifted faithfully", "statement": "When Rust calls a foreign-implemented method, a success is delivered as Ok(value), a declared error as Err(error), any other exception becomes the unexpected-error conversion (or a panic if the error type has none), and a value that fails to lift is treated as unexpected.", "quantifier": "every callback status code and buffer", "why_tests_cant": "all status/buffer combinations", "anchors": ["uniffi_core/src/ffi_converter_traits.rs: LiftReturn", "uniffi_core/src/ffi_converter_impls.rs: LiftReturn for Result", "uniffi_core/src/ffi/callbackinterface.rs"]}
{"id": "C24", "title": "Argument-buffer calling convention round trip", "statement": "Values written to the flat FFI buffer are read back unchanged in the same order, each using exactly its declared number of slots, for every argument list; return value and status come back in the declared order.", "quantifier": "every list of FFI values", "why_tests_cant": "all argument lists", "anchors": ["uniffi_core/src/ffi/ffiserialize.rs", "uniffi_macros/src/export/scaffolding.rs: ffi buffer functions"]}
{"id": "C25", "title": "Each continuation is called exactly once", "statement": "Every continuation callback handed to the poll function of a Rust future is invoked at most once, under any interleaving of polls, wakes, cancels and frees from any threads; once the future has been freed or cancelled and no call is in progress it has been invoked exactly once.", "quantifier": "every interleaving of any number of threads calling poll/wake/cancel/free", "why_tests_cant": "schedules are unbounded; race tests sample them", "anchors": ["uniffi_core/src/ffi/rustfuture/scheduler.rs", "uniffi_core/src/ffi/rustfuture/future.rs", "uniffi_core/src/ffi/rustfuture/mod.rs"]}
{"id": "C26", "title": "No lost wake-ups", "statement": "If the Rust future's waker fires at any moment after a poll began, then the continuation of that poll (or a later one) is, or will be as soon as the in-progress calls finish, invoked; a wake can never be dropped while a continuation stays parked.", "quantifier": "every interleaving of wake with every step of poll", "why_tests_cant": "the race window is a few instructions wide", "anchors": ["uniffi_core/src/ffi/rustfuture/scheduler.rs: store, wake", "uniffi_core/src/ffi/rustfuture/future.rs: RustFuture::poll"]}
{"id": "C27", "title": "Cancellation is sticky and prompt", "statement": "After cancel, every pending and every later continuation is called with Ready, and the future is not polled again by polls that start afterwards.", "quantifier": "every history after a cancel", "why_tests_cant": "all histories", "anchors": ["uniffi_core/src/ffi/rustfuture/scheduler.rs: cancel", "uniffi_core/src/ffi/rustfuture/future.rs"]}
{"id": "C28", "title": "Future results are delivered at most once and correctly", "statement": "Completing a future after it reported Ready returns exactly the value (or error/panic status) it produced; completing a second time, or completing a cancelled unfinished future, reports Cancelled; the underlying future is never polled again after it finished, panicked, completed or was freed.", "quantifier": "every sequence of poll/complete/free/cancel", "why_tests_cant": "all sequences", "anchors": ["uniffi_core/src/ffi/rustfuture/future.rs: WrappedFuture, RustFuture"]}
{"id": "C29", "title": "A Rust future is released exactly once", "statement": "The future object stays alive while the foreign handle or any waker clone exists and is released exactly when the last goes away, in any order; no waker operation touches it after release.", "quantifier": "every history of handle creation/free and waker clone/wake/wake_by_ref/drop", "why_tests_cant": "all histories", "anchors": ["uniffi_core/src/ffi/rustfuture/future.rs: RustFuture waker vtable", "uniffi_core/src/ffi/rustfuture/mod.rs"]}
{"id": "C30", "title": "One-shot channel delivers exactly once", "statement": "A value sent is received exactly once by the receiver; the receiver, if it was waiting, is woken; no interleaving of send and poll leaves the receiver parked with the value present and no wake issued.", "quantifier": "every interleaving of send and polls", "why_tests_cant": "race windows", "anchors": ["uniffi_core/src/oneshot.rs"]}
{"id": "C31", "title": "Foreign async calls complete or are dropped exactly once", "statement": "A Rust future awaiting a foreign async method yields exactly the lifted result that the foreign side reported, and the foreign 'dropped' callback runs exactly once whether the future finished or was dropped early.", "quantifier": "every interleaving of foreign completion with polling and dropping", "why_tests_cant": "all interleavings", "anchors": ["uniffi_core/src/ffi/foreignfuture.rs", "uniffi_core/src/oneshot.rs"]}
{"id": "C32", "title": "Generated async drivers follow the future protocol", "statement": "The generated await loop (Python, Kotlin, Swift) leaves at most one continuation outstanding, completes a future only after it reported Ready, frees it exactly once on every exit path, and removes every continuation from its handle map.", "quantifier": "every sequence of poll results, cancellations and errors", "why_tests_cant": "all sequences", "anchors": ["uniffi_bindgen/src/bindings/python/templates/Async.py", "uniffi_bindgen/src/bindings/kotlin/templates/Async.kt", "uniffi_bindgen/src/bindings/swift/templates/Async.swift"]}
{"id": "C33", "title": "Object handles keep objects alive exactly as long as needed", "statement": "A Rust object passed to foreign code stays alive while any handle to it or Rust reference exists and is dropped exactly once when the last is released; method calls that clone a handle first never see a dropped object.", "quantifier": "every history of create/clone/free/method call/lower/lift on any number of objects", "why_tests_cant": "all histories", "anchors": ["uniffi_core/src/ffi/handle.rs", "uniffi_core/src/ffi_converter_traits.rs: HandleAlloc", "uniffi_macros/src/object.rs"]}
{"id": "C34", "title": "Foreign handle maps never confuse objects", "statement": "A handle returned by insert or clone is odd, non-zero, distinct from every handle ever returned, maps to the object inserted until it is removed, and is invalid (an error, not another object) afterwards; the map holds exactly the handles not yet removed.", "quantifier": "every history of insert/clone/get/remove, with concurrent interleaving", "why_tests_cant": "all histories", "anchors": ["uniffi_bindgen/src/bindings/python/templates/HandleMap.py", "uniffi_bindgen/src/bindings/kotlin/templates/HandleMap.kt", "uniffi_bindgen/src/bindings/swift/templates/HandleMap.swift", "uniffi_bindgen/src/bindings/ruby/templates/HandleMap.rb"]}
{"id": "C35", "title": "Trait objects return to their owner", "statement": "A trait object, implemented on any side its declaration allows and passed across any number of times is always dispatched to its original implementation; Rust-made and foreign-made handles are never confused; every foreign map entry is removed once Rust has dropped its wrappers.", "quantifier": "every history of passing trait objects back and forth", "why_tests_cant": "all histories", "anchors": ["uniffi_macros/src/export/trait_interface.rs", "uniffi_macros/src/export/callback_interface.rs", "uniffi_core/src/ffi/handle.rs", "uniffi_bindgen/src/bindings/python/templates/InterfaceTemplate.py", "uniffi_bindgen/src/bindings/kotlin/templates/ObjectTemplate.kt"]}
{"id": "C36", "title": "Kotlin objects: no use after destroy", "statement": "Under any interleaving of method calls and destroy/close from many threads, no method call runs on a freed object, the object is freed exactly once, after destroy and after the last in-flight call. (Passing a destroyed object as an argument is not protected by the counter; the violation is shown.)", "quantifier": "every interleaving of calls and destroys", "why_tests_cant": "unbounded schedules", "anchors": ["uniffi_bindgen/src/bindings/kotlin/templates/ObjectTemplate.kt: callWithHandle, destroy"]}
{"id": "C37", "title": "Metadata buffer building is exact", "statement": "Building a metadata buffer either fails at compile time because the item does not fit, or yields exactly the concatenation of the encoded parts; nothing is truncated silently.", "quantifier": "every sequence of concat operations", "why_tests_cant": "all sequences and sizes", "anchors": ["uniffi_core/src/metadata.rs: MetadataBuffer"]}
{"id": "C38", "title": "Type metadata round trip", "statement": "The metadata a Rust type exports is decoded by the bindings generator as the same type, for every nesting of types, with Vec<u8> reported as bytes.", "quantifier": "every type, unbounded nesting", "why_tests_cant": "all nestings", "anchors": ["uniffi_core/src/ffi_converter_impls.rs: TYPE_ID_META", "uniffi_meta/src/reader.rs: read_type"]}
{"id": "C39", "title": "Item metadata round trip", "statement": "The metadata exported by the proc-macros for functions, methods, constructors, records, enums, errors, objects, traits, callback interfaces, custom types and defaults is decoded as the same definition (an empty docstring decodes as none).", "quantifier": "every definition that fits the encoder's limits", "why_tests_cant": "all definitions", "anchors": ["uniffi_macros/src/*.rs: *_meta_static_var, metadata_expr", "uniffi_meta/src/reader.rs"]}
{"id": "C40", "title": "Corrupt metadata is never misread as extra data", "statement": "Decoding metadata never reads outside the given bytes; truncating an item's metadata anywhere never decodes as a complete item.", "quantifier": "every byte string, every truncation point", "why_tests_cant": "all cut points", "anchors": ["uniffi_meta/src/reader.rs"]}
{"id": "C41", "title": "API checksums agree between library and generator", "statement": "The checksum compiled into the library for an item equals the checksum the generator computes for it, for every item, whatever its size; both 16-bit checksum routines compute the same function of the bytes.", "quantifier": "every metadata byte string", "why_tests_cant": "all byte strings", "anchors": ["uniffi_core/src/metadata.rs: calc_checksum", "uniffi_meta/src/metadata.rs: calc_checksum", "uniffi_meta/src/reader.rs: calc_checksum"]}
{"id": "C42", "title": "Structural hashing input is injective", "statement": "The byte stream fed to the interface checksum differs for any two different interface descriptions of the same shape: sequences, options, strings and nested data cannot run into each other.", "quantifier": "every pair of values of a checksummable type", "why_tests_cant": "pairs are infinite", "anchors": ["uniffi_meta/src/lib.rs: Checksum trait", "uniffi_internal_macros/src/checksum.rs"]}
{"id": "C43", "title": "Metadata grouping is a partition", "statement": "Grouping metadata by crate puts every item into the group of its own crate exactly once, rejects duplicates and items of unknown crates, and loses nothing.", "quantifier": "every list of items", "why_tests_cant": "all lists", "anchors": ["uniffi_meta/src/group.rs"]}
{"id": "C44", "title": "Exported symbol names", "statement": "Scaffolding and generator derive the same symbol for the same item; symbols of different kinds never collide, and two items of the same kind get different symbols when their names differ after lower-casing and neither name makes the separator ambiguous.", "quantifier": "every crate, type and method name", "why_tests_cant": "all names", "anchors": ["uniffi_meta/src/ffi_names.rs"]}
{"id": "C45", "title": "Declarations come out in dependency order", "statement": "The generator's dependency sort outputs every item exactly once, and each item after all items it depends on whenever the dependencies are acyclic; it terminates on cyclic input.", "quantifier": "every item list and dependency relation", "why_tests_cant": "all graphs", "anchors": ["uniffi_bindgen/src/pipeline/general/sort.rs"]}
{"id": "C46", "title": "Recursive types are found", "statement": "A type is marked recursive exactly when it can contain itself. (The code only guarantees: everything marked is on a cycle, and every cycle contains a marked type; a member of a cycle can be missed depending on visiting order.)", "quantifier": "every type graph and every visiting order", "why_tests_cant": "all graphs and hash orders", "anchors": ["uniffi_bindgen/src/pipeline/general/infer_recursive_enums.rs", "uniffi_bindgen/src/interface/mod.rs: infer_recursive_types"]}
{"id": "C47", "title": "Enum discriminants follow Rust's rules", "statement": "Generated discriminants equal those the Rust compiler assigns (explicit value, else previous plus one, first is zero) and the chosen integer type contains every discriminant.", "quantifier": "every variant list", "why_tests_cant": "all lists", "anchors": ["uniffi_bindgen/src/pipeline/general/enums.rs: determine_discriminants"]}
{"id": "C48", "title": "Type traversal and renaming are complete", "statement": "Iterating the types reachable from a type visits every nested type, and renaming renames every occurrence and changes nothing else. (The code skips the inside of Box.)", "quantifier": "every type", "why_tests_cant": "unbounded nesting", "anchors": ["uniffi_meta/src/types.rs: iter_types, rename_recursive"]}
{"id": "C49", "title": "Version compatibility check is exact", "statement": "The compile-time version check accepts exactly equal version strings (of its supported length) and rejects all others.", "quantifier": "every pair of version strings", "why_tests_cant": "all strings", "anchors": ["uniffi_core/src/lib.rs: check_compatible_version"]}
{"id": "C50", "title": "Callback vtables line up", "statement": "Slot i of the table of function pointers the foreign side registers is the function Rust calls for method i, for every interface, every number of methods and every order in which the library lists them, with the free and clone entries first on both sides and the same C signature in each slot; arguments arrive in the declared order. (Method names are distinct, also from the two reserved names, in the foreign language.)", "quantifier": "every method list, every order of the metadata items of a library, every argument list", "why_tests_cant": "all interfaces", "anchors": ["uniffi_macros/src/export/callback_interface.rs", "uniffi_bindgen/src/interface/callbacks.rs", "uniffi_bindgen/src/pipeline/general/callback_interfaces.rs", "uniffi_bindgen/src/pipeline/initial/context.rs methods_for_type", "uniffi_bindgen/src/interface/mod.rs add_trait_method_meta"]}
{"id": "C51", "title": "Borrowed foreign bytes", "statement": "A borrowed byte argument is seen by Rust as exactly the foreign bytes; null is accepted only with length zero and a negative length is always refused.", "quantifier": "every pointer/length combination", "why_tests_cant": "all combinations", "anchors": ["uniffi_core/src/ffi/foreignbytes.rs"]}
{"id": "C52", "title": "Both sides declare the same C signature", "statement": "For every exported function, method and constructor, the C function the bindings declare and call has the parameters and return type of the C function the scaffolding exports, and for async functions the completion function used takes the value the future produces. (The code violates this for arguments borrowing a byte vector, and in Ruby for all borrowed bytes.)", "quantifier": "every exported callable: any number and nesting of argument, return and receiver types, sync or async, and every generator (Python, Swift, Kotlin, Ruby)", "why_tests_cant": "a mismatch is undefined behaviour at the C level that may or may not show; there are infinitely many signatures", "anchors": ["uniffi_macros/src/export/scaffolding.rs gen_ffi_function", "uniffi_bindgen/src/pipeline/general/ffi_functions.rs", "uniffi_bindgen/src/pipeline/general/ffi_types.rs", "uniffi_bindgen/src/interface/ffi.rs", "uniffi_bindgen/src/bindings"]}
{"id": "C54", "title": "Bindings know every type in the interface", "statement": "After loading an interface, the set of types the generators make converters for is exactly the set of types that occur, at any depth, in its items (module paths cut to the crate), and loading fails exactly when one name is used for two different types. (The code misses types nested in the contents of a Box.)", "quantifier": "every list of types of any nesting depth", "why_tests_cant": "unbounded nesting and any combination of types and names", "anchors": ["uniffi_bindgen/src/interface/universe.rs: add_known_type, add_type_definition, normalize_type_module_path"]}
{"id": "C55", "title": "Questions about everything reachable from a type are answered correctly", "statement": "Whether a type refers to objects or contains unsigned integers, directly or through any chain of records, enums, objects and callback interfaces, is answered correctly, and the search ends even when definitions refer to each other in cycles. (The code does not look into Box.)", "quantifier": "every set of definitions, including cyclic ones, and every type", "why_tests_cant": "all reference graphs and depths", "anchors": ["uniffi_bindgen/src/interface/mod.rs: RecursiveTypeIterator, item_contains_object_references, item_contains_unsigned_types"]}
{"id": "C58", "title": "A default value means the same in every language", "statement": "Leaving out an argument or field with a declared default gives, in each of the Kotlin, Swift, Python and Ruby bindings, the value that the Rust attribute declares for its type: the same boolean, integer in any radix, float, string, enum variant, empty collection, absent optional or zero value. A collection default is made anew for each call. (The code does not escape strings, cannot write the smallest 64-bit integer in Kotlin, and renders `[]` for sets and maps as a list.)", "quantifier": "every default expression the attributes accept, every type it is accepted for, and every nesting of optionals and custom types", "why_tests_cant": "the claim ranges over all integers, all strings and all types in four output languages; tests sample a handful of literals", "anchors": ["uniffi_bindgen/src/bindings/kotlin/gen_kotlin/compounds.rs, primitives.rs: render_literal", "uniffi_bindgen/src/bindings/swift/gen_swift/*: literal", "uniffi_bindgen/src/bindings/python/pipeline/default.rs: render_default", "uniffi_bindgen/src/bindings/ruby/gen_ruby/mod.rs: literal_rb", "uniffi_macros/src/default.rs"]}
{"id": "C59", "title": "A default value in an interface definition file means what is written", "statement": "A default accepted from an interface definition file stands for the value its text denotes (decimal, octal, hexadecimal, negative), and every default whose value fits its type is accepted. (The code does not check the range of small integer types and refuses an upper-case 0X.)", "quantifier": "every text of an integer, float, string, boolean, null or empty collection, and every type", "why_tests_cant": "unbounded set of literal texts and types", "anchors": ["uniffi_udl/src/literal.rs: convert_default_value, convert_integer", "weedle2/src/literal.rs, weedle2/src/lib.rs: integer lexing"]}
{"id": "C56", "title": "Different types have different converters", "statement": "In the generated Kotlin, Swift and Python code, two types used by an interface share a converter (the class that reads and writes their values) only if they are the same type, so a value is never read or written with the converter of another type. (This needs map keys without user-defined types, and in Python one declaring module per type name: otherwise two different types can get one converter name.)", "quantifier": "every pair of types of any nesting, and every interface", "why_tests_cant": "a clash depends on how the spelled-out names of arbitrarily nested types run together; no list of examples covers all nestings and names", "anchors": ["uniffi_bindgen/src/bindings/kotlin/gen_kotlin/*: canonical_name", "uniffi_bindgen/src/bindings/swift/gen_swift/*: canonical_name", "uniffi_bindgen/src/pipeline/general/types.rs: canonical_name", "uniffi_bindgen/src/bindings/python/pipeline/types.rs: ffi_converter_name"]}
{"id": "C57", "title": "Renaming by configuration is consistent", "statement": "When uniffi.toml renames functions, arguments, types, fields, variants, methods or constructors, the generated bindings have every item under its configured name, every mention of a renamed type (arguments, results, errors, fields, at any nesting, also from other crates) under the new name, so that no mention is left without a definition, and the functions of the library that are called stay the same. (The code does this for Python except behind Box. The Kotlin, Swift and Ruby generators miss the errors of constructors, results and errors of callback methods, methods of records and enums, the type a constructor returns and other crates' types inside compound types; and a renamed callback interface calls a library function that does not exist.)", "quantifier": "every interface, every set of rename tables, every type nesting", "why_tests_cant": "a missed place only shows when an item in that place is renamed; the number of combinations of places, nestings and tables is unbounded", "anchors": ["uniffi_bindgen/src/interface/rename.rs", "uniffi_bindgen/src/interface/visit_mut.rs: ComponentInterface::visit_mut", "uniffi_bindgen/src/pipeline/general/rename.rs", "uniffi_bindgen/src/pipeline/general/types.rs: map_type", "uniffi_bindgen/src/interface/object.rs, callbacks.rs: derive_ffi_funcs"]}
{"id": "C60", "title": "Leaving items out by configuration removes them and nothing else", "statement": "When uniffi.toml lists functions, types, methods or constructors to leave out, the bindings lack exactly those; every other item, and the layout of the callback tables shared with the library, stays as it was. (Kotlin, Swift and Ruby remove the slot of a left-out method from the callback table of a foreign trait, which shifts all later methods.)", "quantifier": "every interface and every list of names", "why_tests_cant": "the claim is about all interfaces and all lists; a shifted callback table is memory corruption that only shows on a call", "anchors": ["uniffi_bindgen/src/interface/exclude.rs: apply_exclusions", "uniffi_bindgen/src/pipeline/general/exclude.rs, objects.rs, namespaces.rs, callback_interfaces.rs"]}
{"id": "C61", "title": "Names in Rust sources are looked up as in Rust", "statement": "When bindings are generated from Rust sources, looking up a path always ends, finds only items that declarations and imports in the sources lead to, and gives the same answer whatever was looked up before. A declared or explicitly imported name wins over glob imports, and two different items for one name are an error. This holds if following imports ends; if glob imports form a cycle the answer can depend on earlier lookups. `self::` paths, imports of raw identifiers, renamed `self` imports and private items behind globs are not handled as in Rust.", "quantifier": "all crates with any modules, items, imports and globs; all paths, namespaces, places and histories of earlier lookups", "why_tests_cant": "The number of import graphs and of lookup orders is unbounded, and the cache makes an answer depend on the history.", "anchors": ["uniffi_parse_rs/src/paths.rs: RPath::resolve, resolve_global_path, child, _child, child_special_item, child_item_or_non_glob_use, child_glob_use, Namespace::matches, LookupCache", "uniffi_parse_rs/src/items.rs: Item", "uniffi_parse_rs/src/use_.rs: parse_use_recurse"]}
{"id": "C62", "title": "Exported items get a path that other crates can import", "statement": "When the interface is read from Rust sources, every exported item is given a module path and a name. The module is public in the crate of the item, the name stands for the item in that module, and the name used in the bindings is the one from the attributes of the item or else its own name. The search ends for every program, does not depend on what was looked up before, and finds a path whenever there is one.", "quantifier": "every set of modules and imports, every item, every history of earlier lookups", "why_tests_cant": "the tests look up a handful of items in one fixture; cycles of glob imports, shadowing and the order of lookups cannot be enumerated", "anchors": ["uniffi_parse_rs/src/public_paths.rs: public_path_to_item, _public_path_to_item, search_module", "uniffi_parse_rs/src/paths.rs: path_string, LookupCache"]}
{"id": "C63", "title": "Types in Rust sources are read as the compiler reads them", "statement": "When the interface is read from Rust sources, the type of every argument and result is found by the rules of Rust: names through modules and imports, aliases with their parameters and defaults, Self, references, slices and trait objects. The type recorded for it, and how an argument is passed, are those that the macros record when the same source is compiled; a type that cannot cross the boundary is refused. The search ends for every program.", "quantifier": "every program, every type expression, every history of earlier lookups", "why_tests_cant": "type expressions nest without bound and aliases can refer to each other in any way; tests cover a few fixed signatures", "anchors": ["uniffi_parse_rs/src/types.rs: resolve_type, _resolve_type, resolve_arg, resolve_return_type, resolve_self_type, try_into_uniffi_meta, GenericArgs", "uniffi_macros/src/fnsig.rs: NamedArg::new"]}
{"id": "C64", "title": "Conditional compilation is applied to Rust sources as the compiler applies it", "statement": "When the interface is read from Rust sources for a target and a set of features, an item, field, variant or method is part of the interface if and only if the compiler keeps it for that target and these features, with the attributes that cfg_attr leaves; everything that the compiler leaves out has no effect on the rest.", "quantifier": "every program, every condition built from all, any, not and options, every target and set of features", "why_tests_cant": "conditions nest without bound and combine with every kind of item; tests cover one small file with three environments", "anchors": ["uniffi_parse_rs/src/compile_env.rs: CompileEnv::parse_attrs, check", "uniffi_parse_rs/src/attrs/*.rs", "uniffi_parse_rs/src/modules.rs: Module::add_items", "uniffi_parse_rs/src/ir.rs: Ir::resolve_items, resolve_item", "uniffi_parse_rs/src/{functions,records,enums,objects,traits,impls,macros}.rs: parse"]}
{"id": "C65", "title": "Metadata made from Rust sources says what is written there", "statement": "When the interface is made from Rust sources without building the library, every exported function, record, enum, error, object, trait, impl and custom type is part of it exactly once, with its name or the one from its attributes, its documentation, and its arguments, fields, variants and methods in order, each with its type and default; nothing else is part of it. It is the interface that the macros put into the library when the same sources are compiled.", "quantifier": "every program, every nesting of modules, every combination of attributes, types and defaults", "why_tests_cant": "programs are unbounded and attributes, types, defaults and modules combine freely; the tests of the repository compare a few fixture crates", "anchors": ["uniffi_parse_rs/src/modules.rs: Module::create_metadata", "uniffi_parse_rs/src/{functions,records,enums,objects,traits,impls,custom_types,trait_impls}.rs", "uniffi_parse_rs/src/attrs/{defaults,utraits}.rs", "uniffi_parse_rs/src/ir.rs: Ir::into_metadata_group_map", "uniffi_macros/src/{fnsig,record,enum_,default}.rs"]}
{"id": "C66", "title": "The interface that generators get holds exactly what the metadata says", "statement": "The interface assembled from the metadata items of a library holds every function and every type exactly once, in the namespace of its crate, and with each type exactly the constructors, methods, built-in traits and trait implementations that name it, methods of traits in the order of their declaration. References to types lead to the namespace of the crate that defines them and keep the Rust names. The result does not depend on the order in which the items are found. Items that contradict each other are refused, all others are accepted. All languages are given the same interface.", "quantifier": "every list of metadata items, of any number of crates, in every order and with every repetition", "why_tests_cant": "the number of items, crates and orders is unbounded; the loader iterates over a hash map, so the order differs from run to run", "anchors": ["uniffi_bindgen/src/pipeline/initial/from_uniffi_meta.rs: UniffiMetaConverter", "uniffi_bindgen/src/pipeline/initial/{context,types}.rs", "uniffi_bindgen/src/macro_metadata/ci.rs: add_group_to_ci, add_item_to_ci", "uniffi_bindgen/src/interface/mod.rs: add_*_meta, add_*_definition", "uniffi_bindgen/src/loader.rs"]}
{"id": "C67", "title": "An interface definition file means what is written", "statement": "Reading an interface definition file gives exactly the items its definitions stand for, each once: functions, constructors and methods with their name, arguments in order, types, defaults, way of passing, error type, asynchrony and documentation; dictionaries, enums, interfaces, callback interfaces and custom types with their members in order and the traits listed. A file is accepted exactly when it has a namespace, introduces each type once, makes custom types from types introduced before, and every definition has an allowed form with known types and allowed attributes. In an accepted file every type expression has one meaning, and the items do not depend on the order of the definitions. It panics only if a constructor names an unknown error type. Accepted but without effect are: traits of plain enums, all but the first Throws, Name or Traits attribute, attributes and modifiers of variants, and all but the last documentation of the namespace.", "quantifier": "every list of definitions, of any number, nesting of types and order", "why_tests_cant": "files are unbounded in size and in the nesting of types; whether a definition is accepted depends on all others", "anchors": ["uniffi_udl/src/collectors.rs: InterfaceCollector::from_webidl, APIBuilder", "uniffi_udl/src/finder.rs: TypeFinder", "uniffi_udl/src/resolver.rs: TypeResolver", "uniffi_udl/src/attributes.rs", "uniffi_udl/src/converters/{mod,callables,enum_,interface}.rs", "uniffi_udl/src/literal.rs"]}
{"id": "C68", "title": "The Rust code generated from an interface definition file exports what the bindings look up", "statement": "For every interface definition file that is accepted, the Rust code generated from it exports, under the symbol and with the C signature each bindings generator declares, every function, constructor, method and method of a built-in trait, the functions that clone and free handles, and the functions that take tables of callbacks with the same table, in which the methods of a callback interface are in the order written; and the checksums it returns are the ones the bindings compare. Generating it does not panic unless something other than an enum, an object or a custom type made from them is thrown.", "quantifier": "every accepted interface definition file: any number of definitions, members and arguments of any type", "why_tests_cant": "files and argument lists are unbounded; Rust code and bindings are generated by separate programs that only meet when the library is loaded", "anchors": ["uniffi_bindgen/src/scaffolding/mod.rs", "uniffi_bindgen/src/scaffolding/templates/*.rs", "uniffi_bindgen/src/pipeline/general/ffi_functions.rs", "uniffi_bindgen/src/pipeline/general/checksums.rs", "uniffi_bindgen/src/interface/mod.rs: iter_user_ffi_function_definitions, iter_checksums", "uniffi_bindgen/src/loader.rs: add_checksums_to_udl_group", "uniffi_macros/src/export/utrait.rs"]}
{"id": "C69", "title": "Errors reach the other side as the variant that was raised, with its message or its fields", "statement": "For every enum declared with derive(Enum), derive(Error) with or without flat_error, or in an interface definition file, and whatever the functions of the library throw: an error value returned by Rust is read in Python, Kotlin, Swift and Ruby as the same variant, with the text of to_string() if the type is a flat error and with its fields otherwise; the class it becomes is an exception; and an error thrown back by foreign code is read by Rust as the same variant with the same fields, unless it is a flat error without a reader, which always panics.", "quantifier": "every library of any number of crates, every declaration with any variants and fields, every value and message, four languages", "why_tests_cant": "the format is chosen twice, by Rust macros from the declaration and by templates from names in the metadata of all crates; the combinations and values are unbounded", "anchors": ["uniffi_macros/src/error.rs", "uniffi_macros/src/enum_.rs", "uniffi_bindgen/src/interface/mod.rs: is_name_used_as_error, should_generate_error_read", "uniffi_bindgen/src/interface/enum_.rs: is_flat", "uniffi_bindgen/src/pipeline/general/context.rs: populate_names_used_as_error", "uniffi_bindgen/src/scaffolding/templates/ErrorTemplate.rs", "uniffi_bindgen/src/bindings/*/templates/ErrorTemplate.*"]}
{"id": "C70", "title": "Values in the buffers shared by Kotlin (JNI) and Rust have places of their own", "statement": "For every interface, the offsets the Kotlin JNI generator writes into the Kotlin and Rust code put every field of a record, the discriminant and every field of each variant, the flag and the value of an option, and every item of a list, map entry or set inside the space of the value that contains it, apart from each other, and aligned for the type, so that no write destroys another value or leaves the buffer.", "quantifier": "every set of namespaces and type definitions with any fields and nesting; every number of items", "why_tests_cant": "offsets depend on all field types in order and on the sort of definitions of all crates; interfaces are unbounded", "anchors": ["uniffi-bindgen-kotlin-jni/src/pipeline/ffi_buffer.rs", "uniffi-bindgen-kotlin-jni/src/pipeline/context.rs", "uniffi-bindgen-kotlin-jni/src/pipeline/records.rs", "uniffi-bindgen-kotlin-jni/src/pipeline/enums.rs", "uniffi-bindgen-kotlin-jni/src/pipeline/compounds.rs"]}
{"id": "C71", "title": "Enums and records passed as arguments of native functions (Kotlin JNI) keep the values of their fields", "statement": "For every interface and every variant of every enum, the fields of the variant get arguments of the native function of their own, of the right types and apart from the discriminant; whatever the fields are taken apart into, the other side receives arguments of the declared types and the same values for the same fields. The same holds for records. The list of arguments is found for every interface without definitions that need themselves.", "quantifier": "every set of type definitions with any number of variants and fields, every value", "why_tests_cant": "arguments are shared between variants by an allocation that depends on the types of all variants; interfaces are unbounded", "anchors": ["uniffi-bindgen-kotlin-jni/src/pipeline/ffi_types.rs", "uniffi-bindgen-kotlin-jni/src/pipeline/enums.rs: VariantFieldAllocator", "uniffi-bindgen-kotlin-jni/src/pipeline/records.rs", "uniffi-bindgen-kotlin-jni/src/scaffolding/templates/enum.rs", "uniffi-bindgen-kotlin-jni/src/bindings/templates/shared/EnumFfi.kt", "uniffi-bindgen-kotlin-jni/src/bindings/templates/shared/RecordFfi.kt"]}
{"id": "C72", "title": "Simple values passed through native functions (Kotlin JNI) arrive unchanged", "statement": "For every value of a number type, an optional number, bool or float, a duration, an instant or a string, what Rust passes to Kotlin arrives in Kotlin as the same value and what Kotlin passes to Rust arrives in Rust as the same value, or is refused with an error where the other language has no such value. Absent optional values arrive as absent and present ones as present.", "quantifier": "every value of each type, both directions", "why_tests_cant": "special values stand for absent options and signs are kept in one of two parts, so single bit patterns and instants can go wrong; the values are unbounded or too many", "anchors": ["uniffi-bindgen-kotlin-jni/src/scaffolding/templates/optional.rs", "uniffi-bindgen-kotlin-jni/src/scaffolding/templates/lift_lower.rs", "uniffi-bindgen-kotlin-jni/src/bindings/templates/shared/LiftLower.kt", "uniffi-bindgen-kotlin-jni/src/scaffolding/templates/duration.rs", "uniffi-bindgen-kotlin-jni/src/scaffolding/templates/timestamp.rs", "uniffi-bindgen-kotlin-jni/src/bindings/templates/shared/OptionalFfi.kt", "uniffi-bindgen-kotlin-jni/src/bindings/templates/shared/DurationFfi.kt", "uniffi-bindgen-kotlin-jni/src/bindings/templates/shared/TimestampFfi.kt"]}
{"id": "C73", "title": "Values passed through JNI arrive unchanged, without touching memory they must not touch and without leaks", "statement": "For every value of every type of an interface, however nested (records, enums, options, lists, maps, sets, boxes, custom types), the arguments one language makes of it have the declared native types, and the value the other language makes of these arguments is the same value. Neither side reads or writes outside a buffer, reads bytes nobody wrote, or frees anything twice, and afterwards all native memory used for the call is free again. The same is true for a value written at its place in a buffer and read from there; no other byte changes.", "quantifier": "every interface, every value of every type and nesting, both directions, every state of memory", "why_tests_cant": "nested values are unbounded, and a wrong offset, size or owner shows only for some combination of types, values and memory", "anchors": ["uniffi-bindgen-kotlin-jni/src/scaffolding/templates/sequence.rs", "uniffi-bindgen-kotlin-jni/src/scaffolding/templates/record.rs", "uniffi-bindgen-kotlin-jni/src/scaffolding/templates/enum.rs", "uniffi-bindgen-kotlin-jni/src/scaffolding/templates/optional.rs", "uniffi-bindgen-kotlin-jni/src/scaffolding/templates/box.rs", "uniffi-bindgen-kotlin-jni/src/scaffolding/templates/map.rs", "uniffi-bindgen-kotlin-jni/src/bindings/templates/shared/SequenceFfi.kt", "uniffi-bindgen-kotlin-jni/src/bindings/templates/shared/OptionalFfi.kt", "uniffi-bindgen-kotlin-jni/src/bindings/templates/shared/FfiBuffer.kt", "uniffi_core/src/ffi/ffibuffer.rs"]}
{"id": "C75", "title": "Objects passed through JNI live exactly as long as somebody can use them", "statement": "In every history of passing objects between Rust and Kotlin through JNI (objects of Rust, of traits, Kotlin implementations of traits and callback interfaces), cloning, calling, destroying and collecting them on any threads: no memory is used after it was freed; a Rust object is dropped exactly once, namely when no Rust code, no Kotlin object and no value on its way refers to it; Kotlin keeps an object it gave to Rust exactly as long as Rust can use it; a method runs on the object that was passed; a Kotlin object frees its handle exactly once, however destroy and the cleaner race; and nothing is left allocated when nobody refers to anything.", "quantifier": "every history of lowering, lifting, cloning, calls, destroy, collection and drops, on any number of objects and threads", "why_tests_cant": "leaks, double frees and use after free depend on the order of events on several threads and on the collector, and histories are unbounded", "anchors": ["uniffi-bindgen-kotlin-jni/src/scaffolding/templates/class.rs", "uniffi-bindgen-kotlin-jni/src/scaffolding/templates/callback_interface.rs", "uniffi-bindgen-kotlin-jni/src/bindings/templates/Class.kt", "uniffi-bindgen-kotlin-jni/src/bindings/templates/shared/ClassFfi.kt", "uniffi-bindgen-kotlin-jni/src/bindings/templates/shared/CallbackInterfaces.kt", "uniffi-bindgen-kotlin-jni/src/bindings/templates/shared/CallbackInterfaceFfi.kt", "uniffi-bindgen-kotlin-jni/src/bindings/templates/shared/BuiltinCleaner.kt"]}
{"id": "C76", "title": "An async call through JNI is woken, ends and is cleaned up exactly once", "statement": "In every history of an async Rust function called from Kotlin through JNI, with wakers cloned, called and dropped on any threads at any time: every continuation is resumed at most once; a wake is never lost, a suspended call that was woken is polled again; the future is not polled more often than it was woken, and once at the start; generated code neither loops nor gets stuck; the future is not polled after its result; the call returns or throws what the future gave; the handle is freed exactly once, when the call ends; the future is dropped exactly once, when the call has ended and no waker is left; and no reference to a continuation is left or deleted twice.", "quantifier": "every history of polls, answers of the future, clones, calls and drops of wakers, and every interleaving of the threads that wake with the call", "why_tests_cant": "wakes race with the end of a poll and with each other; a lost or doubled wake shows only in rare schedules", "anchors": ["uniffi-bindgen-kotlin-jni/src/scaffolding/templates/async.rs", "uniffi-bindgen-kotlin-jni/src/scaffolding/templates/jni_method.rs", "uniffi-bindgen-kotlin-jni/src/bindings/templates/shared/Async.kt", "uniffi-bindgen-kotlin-jni/src/bindings/templates/CallableBody.kt", "uniffi_core/src/ffi/rustfuture/scheduler.rs"]}
{"id": "C77", "title": "The items found in a library are those compiled into it, each once", "statement": "For every library file, in any of the supported formats, with any number and order of sections and symbols: extraction of metadata gives exactly the items whose symbols the library defines, each once, read from the place the format says the symbol is at; and if it succeeds, no symbol was left out.", "quantifier": "every ELF, COFF, PE, Mach-O and fat file and every archive; every layout of sections, table of symbols and contents", "why_tests_cant": "tests read libraries built by one linker on one platform; section tables with more than 65535 entries, other byte orders and unusual layouts never occur", "anchors": ["uniffi_bindgen/src/macro_metadata/extract.rs", "uniffi_macros/src/util.rs", "uniffi_meta/src/reader.rs"]}
{"id": "C78", "title": "Configuration comes from the documented layers in the documented order", "statement": "For every crate, the value of each setting the generators see is that of [crates.<name>] in the global configuration if it is there, else that of the crate's uniffi.toml, else that of [defaults]; no setting of any layer is lost or taken from another crate. Merging fails exactly if two layers have values of different types at the same place, or the file of the crate cannot be read. The file of a crate is looked for where [crate-roots] says, relative to the global configuration, and where Cargo says if it does not say anything.", "quantifier": "every global configuration, uniffi.toml, set of crates and list of layers of paths; tables nested to any depth", "why_tests_cant": "tests merge a handful of small tables; order, nesting and overlap of keys are unbounded", "anchors": ["uniffi_bindgen/src/global_config.rs", "uniffi_bindgen/src/bindgen_paths.rs", "uniffi_bindgen/src/lib.rs", "uniffi_bindgen/src/bindings/mod.rs", "uniffi_bindgen/src/bindings/swift/mod.rs", "uniffi-bindgen-kotlin-jni/src/lib.rs", "docs/manual/src/configuration.md"]}
{"id": "C79", "title": "Bindings made from sources cover exactly the crates that are needed, with their features", "statement": "When bindings are generated from sources, then for every graph of packages, also with cycles, the search for crates ends, and the crates that are parsed are exactly those the given crate needs directly or indirectly (itself included) that depend on uniffi, are not marked to be skipped and have a library; each once; and each is parsed with the features that the user, the crates that are needed and defaults ask for. The directory of a crate is found by the name of its package or library.", "quantifier": "every set of packages with any dependencies, features and names, and every selection of features", "why_tests_cant": "graphs of dependencies are unbounded and may have cycles and diamonds", "anchors": ["uniffi_bindgen/src/cargo_metadata.rs", "uniffi_bindgen/src/bindgen_paths.rs", "uniffi_bindgen/src/loader.rs", "uniffi_parse_rs/src/compile_env.rs"]}
{"id": "C80", "title": "Methods implemented in Kotlin (JNI) give Rust exactly what they did, whatever is nested or concurrent", "statement": "When Rust calls a method that Kotlin implements through JNI, the function it looks for is the one that exists and the arguments have the types it takes. A value that the method returns arrives as that value, a declared error as that error, and any other exception as an error made from its message, or a panic; a method may call Rust functions that call methods again to any depth without changing what the outer calls see; no exception stays pending and no local frame is left. An async method is called at most once, on the object that was asked, its result is sent once, the future that waits for it is woken, gives this result, and the memory of the channel is released once.", "quantifier": "every signature, every behaviour and nesting of Kotlin and Rust code, and every interleaving of any number of async calls, polls, drops and releases", "why_tests_cant": "nesting depth and interleavings are unbounded", "anchors": ["uniffi-bindgen-kotlin-jni/src/scaffolding/templates/callback_interface.rs", "uniffi-bindgen-kotlin-jni/src/scaffolding/templates/callback_interface_shared.rs", "uniffi-bindgen-kotlin-jni/src/scaffolding/templates/async.rs", "uniffi-bindgen-kotlin-jni/src/bindings/templates/shared/CallbackInterfaceFfi.kt", "uniffi-bindgen-kotlin-jni/src/pipeline/callbacks.rs", "uniffi_core/src/oneshot.rs"]}
{"id": "C81", "title": "UDL text is read as what it says, in every layout", "statement": "A UDL file that is made of namespaces, enums, dictionaries, interfaces, callback interfaces and typedefs with attributes, documentation, defaults and types nested to any depth is read as exactly these definitions. White space, line breaks and comments between tokens do not matter. No text can be read in two ways.", "quantifier": "every list of definitions, every nesting of types, every text that spells their tokens, with every white space and comments between them", "why_tests_cant": "definitions, nesting and layouts are unbounded, and the parser decides by trying alternatives in order, so any token could be taken for the beginning of something else", "anchors": ["weedle2/src/lib.rs", "weedle2/src/whitespace.rs", "weedle2/src/term.rs", "weedle2/src/types.rs", "weedle2/src/literal.rs", "weedle2/src/common.rs", "weedle2/src/interface.rs", "weedle2/src/argument.rs", "uniffi_udl/src/collectors.rs"]}
{"id": "C82", "title": "Equality, order, hash codes and text of exported types are those of Rust", "statement": "For a type that exports Eq, Ord, Hash, Display or Debug, the operators ==, !=, <, <=, >, >=, the hash code and the text that each language gives are those that Rust computes. Comparing with a value of another type says no and raises nothing. Two values that a dictionary takes for one key have equal hash codes.", "quantifier": "every language, every kind of type, every set of exported traits, every lawful Rust implementation and every pair of values", "why_tests_cant": "implementations and values are unbounded, and which member wins depends on the combination of language, kind of type, variant and exported traits", "anchors": ["uniffi_macros/src/export/utrait.rs", "uniffi_bindgen/src/pipeline/general/uniffi_traits.rs", "uniffi_bindgen/src/bindings/python/templates/UniffiTraitImpls.py", "uniffi_bindgen/src/bindings/python/templates/RecordTemplate.py", "uniffi_bindgen/src/bindings/python/templates/EnumTemplate.py", "uniffi_bindgen/src/bindings/kotlin/templates/macros.kt", "uniffi_bindgen/src/bindings/kotlin/templates/EnumTemplate.kt", "uniffi_bindgen/src/bindings/kotlin/templates/ErrorTemplate.kt", "uniffi_bindgen/src/bindings/kotlin/gen_kotlin/mod.rs", "uniffi_bindgen/src/bindings/swift/templates/macros.swift", "uniffi_bindgen/src/bindings/swift/gen_swift/mod.rs", "uniffi_bindgen/src/bindings/ruby/templates/UniffiTraitImpls.rb", "uniffi_bindgen/src/bindings/ruby/templates/EnumTemplate.rb", "uniffi-bindgen-kotlin-jni/src/bindings/templates/UniffiTraitMethods.kt", "uniffi-bindgen-kotlin-jni/src/bindings/templates/Enum.kt"]}
{"id": "C83", "title": "Names of the API become legal and distinct names in every language", "statement": "Each function, argument, field, type and variant gets a name that the language accepts at that place, also if the Rust name is a keyword there. Names in the style of Rust keep their words, and two of them that differ in Rust differ in every language. Functions of the native library have names of their own.", "quantifier": "every language, every place of a name, every name", "why_tests_cant": "names are unbounded strings, case conversion splits them into words by context, and the keyword lists are compared with names after conversion", "anchors": ["uniffi_bindgen/src/bindings/python/pipeline/names.rs", "uniffi_bindgen/src/bindings/kotlin/gen_kotlin/mod.rs", "uniffi_bindgen/src/bindings/swift/gen_swift/mod.rs", "uniffi_bindgen/src/bindings/swift/templates/macros.swift", "uniffi_bindgen/src/bindings/ruby/gen_ruby/mod.rs", "uniffi-bindgen-kotlin-jni/src/pipeline/names.rs", "uniffi-bindgen-kotlin-jni/src/pipeline/callables.rs"]}
{"id": "C84", "title": "Documentation reaches the bindings whole and stays a comment", "statement": "Whatever a doc comment says, in the bindings it becomes exactly one comment (Kotlin, Swift) or one string (Python), so that the code after it is read as code. Every letter of the text is there, in order, with the lines of the text and with the indentation of its lines relative to each other.", "quantifier": "every text and every indentation of the code around it", "why_tests_cant": "texts are unbounded and may contain, overlap or nearly contain the marks that end a comment or a string, also across the edits that take these marks apart", "anchors": ["uniffi_bindgen/src/bindings/kotlin/gen_kotlin/mod.rs", "uniffi_bindgen/src/bindings/swift/gen_swift/mod.rs", "uniffi_bindgen/src/bindings/python/filters.rs", "uniffi_udl/src/converters/mod.rs", "uniffi_macros/src/util.rs"]}
{"id": "C85", "title": "Values of any type as arguments in Python and Ruby", "statement": "Whatever value a caller in Python or Ruby passes for an argument, the call is refused with an exception in that language, or Rust gets the value that the argument means where that type is expected. A value that has a meaning is not refused.", "quantifier": "every interface with records and enums, every type and every value of the language, of any shape and depth", "why_tests_cant": "a caller can pass any value whatever, nested to any depth, with the wrong thing at any place in it", "anchors": ["uniffi_bindgen/src/bindings/python/templates/RustBufferHelper.py", "uniffi_bindgen/src/bindings/python/templates/EnumTemplate.py", "uniffi_bindgen/src/bindings/python/templates/RecordTemplate.py", "uniffi_bindgen/src/bindings/python/templates/BoxTemplate.py", "uniffi_bindgen/src/bindings/python/templates/CallableBody.py", "uniffi_bindgen/src/bindings/ruby/gen_ruby/mod.rs", "uniffi_bindgen/src/bindings/ruby/templates/Helpers.rb", "uniffi_bindgen/src/bindings/ruby/templates/RustBufferBuilder.rb", "uniffi_bindgen/src/bindings/ruby/templates/macros.rb"]}
{"id": "C86", "title": "Nothing in the description of an interface is overlooked or changed on the way to a generator", "statement": "Visiting the nodes of a type in the description of an interface gives every node of that type, however deep, once and in reading order; it panics only if no node of that type can occur. Futures are declared exactly if something is async, and converters are made for exactly the types used. A pass changes the nodes it has a function for, wherever they are, and nothing else; it fails exactly if one of its functions fails, with the first failure. The pipeline command prints exactly the nodes that its filter asks for.", "quantifier": "every tree of nodes of any shape and depth, every set of type definitions, also recursive ones, every order in which hash sets are iterated, every closure and every list of passes", "why_tests_cant": "trees are nested to any depth through recursive types, and the check of types depends on the order of a hash set", "anchors": ["uniffi_pipeline/src/node.rs", "uniffi_pipeline/src/map_node.rs", "uniffi_pipeline/src/pipeline.rs", "uniffi_bindgen/src/pipeline/initial/nodes.rs", "uniffi_bindgen/src/pipeline/general/rust_future.rs", "uniffi_bindgen/src/pipeline/general/type_definitions_from_api.rs"]}
{"id": "C87", "title": "A library whose exported functions changed is refused when bindings are loaded", "statement": "Bindings compare the contract version and the checksum of every exported function, method and constructor with what the library returns when they are loaded. If one differs or is missing the library is refused; if none does it is loaded.", "quantifier": "every interface, every library with any set of exported checksum functions and any values, every configuration", "why_tests_cant": "it is about every pair of an interface and a library made from another version of it", "anchors": ["uniffi_bindgen/src/interface/mod.rs", "uniffi_bindgen/src/pipeline/general/checksums.rs", "uniffi_bindgen/src/loader.rs", "uniffi_bindgen/src/bindings/python/templates/ChecksumsLegacy.py", "uniffi_bindgen/src/bindings/python/templates/NamespaceLibraryTemplate.py", "uniffi_bindgen/src/bindings/kotlin/templates/NamespaceLibraryTemplate.kt", "uniffi_bindgen/src/bindings/swift/templates/wrapper.swift"]}
{"id": "C88", "title": "What is written in an export attribute is what is exported, or it is refused", "statement": "An item under #[uniffi::export] is refused exactly when its attributes or its signature say something that is not known, contradictory, repeated or unfit for it. Otherwise every name, default value, async runtime, kind of trait and built-in trait that is written takes effect on the item it is written for, members keep their order, and Self means the type of the block.", "quantifier": "every function, impl block, trait, struct and enum with any attributes, arguments in any order, and any signatures", "why_tests_cant": "the ways to combine attributes, arguments and signatures are unbounded, and an argument that is silently dropped fails no test that does not look for it", "anchors": ["uniffi_macros/src/export/attributes.rs", "uniffi_macros/src/export/item.rs", "uniffi_macros/src/export.rs", "uniffi_macros/src/export/scaffolding.rs", "uniffi_macros/src/export/trait_interface.rs", "uniffi_macros/src/export/callback_interface.rs", "uniffi_macros/src/fnsig.rs", "uniffi_macros/src/util.rs", "uniffi_macros/src/default.rs"]}
{"id": "C89", "title": "What is written for a derive macro is recorded, and bindings made from sources see the same", "statement": "A struct or enum with a derive of UniFFI is refused exactly when its attributes say something unknown, repeated or unfit, or it is too large. Otherwise names, defaults, values, documentation and the integer type are recorded as written and in order, and the reader that makes bindings from sources accepts the item and reads the same.", "quantifier": "every struct and enum with any attributes, any number of fields and variants with any attributes, and any conditions on them", "why_tests_cant": "two independent parsers have to agree on all combinations of attributes in any order; tests compare a few files", "anchors": ["uniffi_macros/src/record.rs", "uniffi_macros/src/object.rs", "uniffi_macros/src/enum_.rs", "uniffi_macros/src/error.rs", "uniffi_macros/src/util.rs", "uniffi_macros/src/default.rs", "uniffi_parse_rs/src/attrs/enums.rs", "uniffi_parse_rs/src/attrs/defaults.rs", "uniffi_parse_rs/src/enums.rs"]}
{"id": "C90", "title": "Every conversion that generated Kotlin JNI code calls is defined exactly once", "statement": "In the Kotlin and Rust code generated for an interface, each function for converting a value that is called is defined exactly once, in the runtime or in the generated code, and belongs to the type that is converted. So the generated code compiles for every interface that the generator accepts.", "quantifier": "every interface with any number of crates, types nested in any way, functions, methods and callback methods with any arguments and results, on both sides", "why_tests_cant": "which function is generated is decided in templates for each kind of type and which is called is decided elsewhere by name; a missing one shows only for the combination of types that needs it", "anchors": ["uniffi-bindgen-kotlin-jni/src/pipeline/types.rs", "uniffi-bindgen-kotlin-jni/src/pipeline/callables.rs", "uniffi-bindgen-kotlin-jni/src/pipeline/packages.rs", "uniffi-bindgen-kotlin-jni/src/pipeline/root.rs", "uniffi-bindgen-kotlin-jni/src/pipeline/compounds.rs", "uniffi_core/src/ffi/ffibuffer.rs"]}
{"id": "C91", "title": "Rust finds the Kotlin functions that it looks up when results are returned", "statement": "When a Rust function returns a value of several parts, an error or a boxed value to Kotlin over JNI, the generated Kotlin function that puts the value together is found by the signature that Rust asks for, is called with each part where it is expected, and returns an object. So no such call fails because of a method that does not exist.", "quantifier": "every interface with any number of crates and types nested in any way, every result, error and boxed type, all package and class names", "why_tests_cant": "the signature is text made from the Kotlin name of the type and compared only by the virtual machine when the call is made; it is wrong only for certain combinations of types", "anchors": ["uniffi-bindgen-kotlin-jni/src/pipeline/types.rs", "uniffi-bindgen-kotlin-jni/src/pipeline/ffi_types.rs", "uniffi-bindgen-kotlin-jni/src/pipeline/root.rs", "uniffi-bindgen-kotlin-jni/src/scaffolding/templates/lift_lower.rs", "uniffi-bindgen-kotlin-jni/src/scaffolding/templates/jni_method.rs", "uniffi-bindgen-kotlin-jni/src/bindings/templates/Custom.kt"]}
{"id": "C92", "title": "Native functions declared in Kotlin are exported by Rust, once and with the same parameters", "statement": "Every native function that generated Kotlin code declares is exported by the generated Rust code under exactly the symbol that the Java virtual machine looks for when it is first called, with parameters of the same types in the same order, and returns its result in the way that Kotlin expects. Every exported function is declared. No function is declared or exported twice, and results share helper functions only if they return and throw the same types.", "quantifier": "every interface with any number of crates, functions, objects, boxes, results and errors of any types", "why_tests_cant": "a missing symbol fails only when the function is called first, and parameters that do not match are not noticed by either compiler; names hold numbers that depend on all types of the interface", "anchors": ["uniffi-bindgen-kotlin-jni/src/bindings/templates/shared/Scaffolding.kt", "uniffi-bindgen-kotlin-jni/src/scaffolding/templates/async.rs", "uniffi-bindgen-kotlin-jni/src/scaffolding/templates/box.rs", "uniffi-bindgen-kotlin-jni/src/scaffolding/templates/class.rs", "uniffi-bindgen-kotlin-jni/src/scaffolding/templates/jni_method.rs", "uniffi-bindgen-kotlin-jni/src/scaffolding/templates/ffi_buffer.rs", "uniffi-bindgen-kotlin-jni/src/scaffolding/templates/callback_interface_shared.rs", "uniffi-bindgen-kotlin-jni/src/pipeline/callables.rs", "uniffi-bindgen-kotlin-jni/src/pipeline/root.rs"]}
