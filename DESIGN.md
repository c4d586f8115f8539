# Formal model of defmt — design

The model is written in Lean 4 (core library only; Mathlib is not imported). `/repo` is the source
being modelled; nothing there is executed.

## Layout

* `lean/Verif/Model/*.lean` – the model: one definition per modelled Rust function, each with a
  comment citing file and lines and the simplifications made.
* `lean/Verif/Spec/*.lean` – small independent specifications used in theorem statements.
* `lean/Verif/Lemmas/*.lean` – helper lemmas.
* `lean/Verif/Props/*.lean` – the property theorems (names start with the property id), each with a
  concrete instance showing that its hypotheses are met.
* `properties.jsonl` – the properties in English; `MANIFEST.json` – which theorems prove which.
* `seeded/LOG.jsonl` – wrong programs tried against the theorems.

## Conventions

* bytes are `UInt8`, byte strings are `List UInt8`, strings are `List Char` (UTF-8 positions are
  only tracked where the Rust code can fail because of them; the `DEFMT_LOG` filter works on bytes).
* `Result`/`Option` stay data; a Rust panic is an explicit value (`Outcome.panic`, `none` where the
  comment says so, or an error constructor), never a junk default.
* `&mut self` methods return the new state; loops are structural recursions or fuel loops whose
  fuel is shown to be sufficient.
* concurrency is an interleaving transition system with sequentially consistent steps (C102: with store buffers); theorems
  about it quantify over all reachable states.
* A theorem name ending in `_partial` does not cover the whole English property; its comment and the
  note in `MANIFEST.json` say what is missing. A name with `_fails`, `_disagrees` or `_panics` is a
  proof, with a concrete witness, that the code does not have the property in full.

## Trusted base

* Lean 4.33.0 kernel. Axioms: at most `propext`, `Classical.choice`, `Quot.sound`; the table at the
  end of this file lists them for each theorem. No `sorry`, no added axioms, no `native_decide`.
* The hand translation of the Rust functions listed below into Lean.
* External code, by assumption:

| external code | how it enters the model |
|---|---|
| `core::fmt` integer formatting | written out (`padIntegral`); the largest width is a parameter |
| `core::fmt` padding of strings | written out; largest width is a parameter (`Term`) |
| `str::from_utf8`, UTF-8 encoding | written out (`Model/Utf8.lean`) |
| `ryu`, `{:?}` of strings, `cbor_edn`, formatting of a date in range | parameters (`Env`), any functions |
| `serde_json` reading symbol names | written out after RFC 8259 (`Model/JsonString.lean`, `Model/Json.lean`; the grammar is in `Spec/Json.lean`) |
| `object` (ELF), `gimli` (DWARF) | an ELF file is its list of symbols and the bytes of `.defmt`; debug information is a forest of entries with their attributes |
| the linker | hypothesis `Linked`: the address of an interned string is its index in the table |
| `syn::parse_str::<Ident>` | parameter `ident` of the filter, any predicate (C61 assumes that it rejects the malformed names) |
| `critical_section` | by its contract: a lock that its owner can take again |
| `colored`, `dissimilar`, `char::is_alphabetic`, `regex` for one pattern, `Path::iter` | parameters (`Term`) with the contracts in `Term.Ok`, or written out |
| `nom` 7 combinators | written out (`Model/LogParser.lean`) |
| transport (RTT memory, sockets, files) | chunks returned by successive reads; for RTT shared memory with sequentially consistent steps (`Model/Weak`: with store buffers) |

## What is modelled

| source | model | not modelled |
|---|---|---|
| `defmt/src/encoding/rzcobs.rs`, `raw.rs` | `Model/Rzcobs`, `Model/Stream` | |
| `decoder/src/stream/*` | `Model/Rzcobs`, `Model/Stream` | |
| `parser/src/{lib,types,display_hint}.rs` | `Model/Parser`, complete | texts of error messages |
| `decoder/src/decoder.rs`, `Table::decode` etc. of `lib.rs` | `Model/Decoder`, complete | `Vec::with_capacity` of an untrusted length |
| `defmt/src/export/*`, `defmt/src/impls/*`, `macros/src/function_like/log/codegen.rs`, `write`, `timestamp` | `Model/Encoder` | argument parsing by `syn`, hygiene |
| `macros/src/function_like/{panic_like,assert_like,assert_binop,dbg}*`, `construct.rs:escaped_expr_string` | `Model/Macros` | order of evaluation, spans; `ToTokens` printing is a parameter |
| `macros/src/derives/*` | `Model/Derive` | generics, where clauses, `#[defmt(crate = ..)]` |
| `decoder/src/frame.rs` | `Model/Frame`, complete up to `Env` | |
| `firmware/defmt-rtt/src/channel.rs` | `Model/Rtt`, `Model/Attach` (the host changes the mode flags at any moment), `Model/Weak` (stores become visible late and out of order) | speculative stores, memory that is not coherent (a data cache the debug probe does not see) |
| `firmware/defmt-{rtt,semihosting,itm}/src/lib.rs` | `Model/Logger` | hardware access |
| `macros/src/function_like/log/env_filter*.rs`, use in `log.rs` | `Model/EnvFilter` | |
| `macros/src/construct/symbol.rs`, `decoder/src/elf2table/*` | `Model/Symbol`, `Model/Elf`, `Model/Dwarf` | `object`, `gimli` |
| `macros/src/items/bitflags.rs`, `macros/src/items/bitflags/input.rs` | `Model/Bitflags`, `Model/BitflagsInput` | the `bitflags` crate (it puts all attributes of a flag on its constant); `syn` |
| `decoder/src/log/format/{mod,parser}.rs` | `Model/LogFormat`, `Model/LogParser` | |
| `print/src/main.rs`, `qemu-run/src/main.rs` main loops | `Model/Printer` | command line, sockets, file watching |
| `firmware/defmt-rtt/src/lib.rs` as a whole (logger calling the channel) | `Model/System` | one host attaches, at any moment; the flags are not changed otherwise |
| `decoder/src/log/{mod,json_logger,stdout_logger}.rs`, `decoder/defmt-json-schema`, output of `print/src/main.rs` | `Model/HostLog`, `Model/Json` | `serde_json` is modelled after RFC 8259 (`C100_json`); location table, clock and `Path::strip_prefix` are parameters; write errors are ignored |
| `defmt/src/impls/**`, default methods of `defmt/src/traits.rs` | `Model/Impls` | element types only as their format string; `core::fmt` output of the adapters and float texts are parameters; NonNull, function pointers etc. as the one `write!` they make |
| `firmware/defmt-test` | `Model/Harness` | types are texts, a `#[cfg]` is whether it holds, functions are what they do to a world; spans and texts of errors, name clashes |
| expansions of log macros as run time code, `taken` flag, `firmware/panic-probe` | `Model/Program` | one context; values; the application is any function from worlds to statements; registers of `hard_fault`; the channel takes everything (C48, C75 for the channel) |
| sections of the statics, `defmt.x.in`, `IdRanges` | `Model/Linker` | what `ld` documents about the commands used (first match, `KEEP`, location counter, alignment); macOS names |
| `print/src/main.rs`: `main`, `run`, `run_and_watch`, `has_file_changed`, `Source::read` | `Model/Run.lean` | the input, the file and its notifications are events; creating the source and the watcher succeeds; the warning about incomplete locations on a second load is left out |
| symbols defined by `#[global_logger]`, `#[panic_handler]`, `timestamp!`; `EXTERN` and `PROVIDE` of `defmt.x.in`; `build.rs` of `defmt` | `Model/Resolve` | what `ld` documents about archives, `EXTERN`, `PROVIDE` and duplicate symbols (validation of the attributes: `Model/Attributes`) |
| `firmware/defmt-rtt/build.rs`, `consts.rs` | `Model/BufferSize` | rustc by three facts: literals, array sizes, lints that are off for dependencies |
| `qemu-run/src/main.rs` with the emulator as a second process | `Model/Qemu` | starting the emulator, failing reads, colours, stderr |
| where clause of `#[derive(Format)]` (`codegen.rs` Generics, predicates of `fields.rs` and `enum_data.rs`) | `Model/DeriveGenerics` | lifetimes, constants, `#[defmt(crate = ..)]` |
| code generated by the macros with its names (`log.rs`, `println.rs`, `panic_like.rs`, `assert.rs`, `assert_binop.rs`, `unwrap.rs`, `dbg.rs`, `write.rs`, `timestamp.rs`) | `Model/Hygiene` | types, borrows and lifetimes of temporaries; user expressions are functions of scope and state |
| places of expressions in the generated code (`log.rs`, `println.rs`, `assert.rs`, `assert_binop.rs`, `unwrap.rs`, `dbg.rs`) | `Model/Splice` | what is in braces; precedence; closures, loops, blocks with labels; that `quote!` adds no invisible groups around a `syn::Expr` is trusted |
| arguments of the macros (`log/args.rs`, `write/args.rs`, `assert_like.rs`, `assert_binop/args.rs`, `dbg/args.rs`, `panic_like.rs`, `intern.rs`) | `Model/MacroArgs` | the expression parser of `syn`: what stands between two commas is one expression |
| order in which a log statement evaluates its arguments, takes the logger, evaluates `timestamp!` and writes, with a clock | `Model/Clock` (on top of `Model/Logger` or `Model/System`) | the clock does not run backwards; the timestamp is a function of one reading of the clock; arguments with interior mutability (read while they are written) |
| `#[global_logger]`, `#[panic_handler]`, `#[defmt(crate = ..)]`: checks and generated items | `Model/Attributes` | `syn` parses the item; the text of types, parameters and bodies is copied as tokens |

Not modelled at all: `defmt-03`, `book/`, `xtask`, build scripts other than those of `defmt` and `defmt-rtt`.

## Plan per property

| id | model | proof |
|----|-------|-------|
| C01–C05 | `Encoder` step function, `rzcobs_decode` | invariant linking encoder state with emitted suffix; induction on payload |
| C06–C08 | `Rzcobs` stream decoder state | invariant (buffer empty or first byte nonzero), drain = function of concatenation |
| C09–C10 | `Table::decode` on arbitrary tables | prefix-monotonicity by induction on fuel |
| C11–C16, C18 | full format string parser | induction over the scanner; C15/C16 are false for the code: witness + partial theorem |
| C17 | decoder over parameter lists | decoding depends only on (index, type) |
| C19–C27 | target side encoders (`export::*`, codegen) and decoder | round trip by mutual induction on typed values; C20/C24 false in general: witness + partial |
| C72 | the whole parser | grammar as relations, `parse_*` iff relation function by function, induction over the scan with the pending text |
| C28, C70 | derive macro string/statement generation | the generated string is `render` of a list of items, so C18 applies; statements equal the encoder of C23; false with an attribute on a native field: witness + partial |
| C29–C31 | `Table::decode` | case analysis, fuel sufficiency |
| C32 | composition | from C01–C07, C23 |
| C33–C39, C59, C60, C71 | `frame.rs` display logic | case analysis, relational specification of the shown text; C33/C35/C39/C71 false: witnesses + partial |
| C40–C42, C62, C63 | symbol names, table construction, `bitflags!` | JSON round trip; string induction; permutation invariance; composition with C32 |
| C43–C47, C61 | `EnvFilter` | specification of the level in force; C45 false: witness + partial |
| C48–C52 | RTT channel as transition system | inductive invariant over all interleavings |
| C53 | logger acquire/write/release as transition system | inductive invariant |
| C54 | print loop | from C06–C09 |
| C55–C58, C64–C69 | log formats and log output | grammar as an inductive relation; round trip of documented formats; output as a relation on visible text and styles; C56/C57/C58/C64/C66 false: witnesses + partial |
| C73, C74 | the panicking and asserting macros (format strings, arguments, control flow) | scanner simulation: text around a format string shifts the scan (`Lemmas/Glue.lean`); C73 false with explicit indices: witnesses + partial |
| C75, C76 | composition of logger, RTT channel, stream decoder and printer | invariant over all interleavings: bytes accepted ++ bytes queued = wire, only the owner of the critical section has bytes queued; then C48, C52, C51, C53, C54 and C23 |
| C77–C80 | log facade, loggers, JSON, options of `defmt-print` | JSON round trip by mutual induction (`Lemmas/Json.lean`); lines as inductive relations on the decoded units; C80 composes C75, C54, C65, C77, C78; C78 and C79 false: witnesses + partial |
| C81–C84 | provided `Format` implementations: tag and bytes of every value | values as an inductive type; mutual induction gives tag, bytes, round trip (C23) and text at once (`Good`, `Lemmas/Impls.lean`); tables of format strings by `decide` over the whole table; C81, C82, C84 false: witnesses + partial |
| C85, C86 | `get_locations` as a walk over deltas of depth | the walk equals a recursion over the forest that carries the path (`visitAbs_forest`, induction); the map by induction over the statements; C85 false: witness + partial |
| C87, C88, C89 | `tests_impl` as list processing; the generated code as statements with an interpreter | the macro succeeds iff a declarative predicate holds, with the program given (`expand_iff`, induction over the items); the run follows the steps of the specification (induction over the tests); ignored tests and several roles: witnesses + partial |
| C90, C91, C92 | a machine that executes statements, log statements and formatting code with the flags `taken` and `PANICKED` | C90: equivalence with a big step relation (both directions, induction); C91: simulation by the program without log statements; C92: invariant over steps; false for panics in formatting code: witness + partial |
| C93, C94, C95 | the statics that the macros make, in any grouping and order, and an interpreter of the linker script | the script splits into phases (one for each pattern), induction over inputs and statics for sortedness and contents; then C62/C63 are applied to the file. C95 false with `bitflags!`: witness for all programs with 4096 flags + exact theorem without |
| C96 | the decoder as it is; a measure of the contents of arguments | every decoding step pays for what it makes with bytes (`Paid`, closed under sequencing), induction over the nesting; false for the number of elements: witness for every length below 2^32 |
| C97 | all models together: linker (C93), system of logger and channel (C75), log output (C80), life of `defmt-print` (C98) | more strings in the table do not matter (`Extends`), then composition of C93, C80 and C98 |
| C98 | `run` and `run_and_watch` as a machine over events outside | invariant by induction over the events, and the converse by induction over the history; the transcript is unique |
| C99 | the same | the first event after which it does not read; the buffer is drained whenever it reads |
| C100 | the reader of JSON (numbers with fraction and exponent, all escapes) and `demangle` on top of it | the grammar of RFC 8259 as an inductive relation; soundness and completeness by induction on the fuel |
| C101 | flags in memory apart from the flags the running call has loaded; the host sets them at any moment | the invariant of blocking mode, started at the moment of attaching: a call that does not block is harmless as long as it has room; a concrete execution for the case without room |
| C102 | store buffers of target and host between the steps of the RTT channel; a store of the write cursor waits for older stores, bytes may overtake newer cursors | the channel with all waiting stores applied satisfies the invariant of C48; waiting bytes lie behind all older cursors; the visible read cursors are ordered; a measure for returning calls; a concrete execution that goes wrong with `Relaxed` |
| C103 | symbols each part defines and needs, the commands of the script, pulling object files from archives in any order | invariants over the order of pulling: only things of the program are linked, each symbol is defined at most once, what the script makes undefined is found if it is anywhere; closure of the result for the order theorem; a concrete program with two `timestamp!` that links in two ways |
| C104 | decoder and encoder as in C23, all byte strings | each reading step gives back the bytes it read (UTF-8 decoding is injective); induction over the nesting depth turns a decoded argument into a value that type checks, sends the bytes and means the argument; converse by mutual induction over values |
| C105 | build script and constant | case analysis with the number grammar of C72; composition with C49 and C50 |
| C106 | two processes with a pipe | invariant over the interleaving: the chunks read so far; composition with C54 and C32; measure for the end |
| C107 | predicates collected field by field, `dedup_by`, header of the `impl`; trait resolution as least fixed point (specification) | membership in the where clause; inversion of the derivation; induction over derivations for recursive types |
| C108 | generated code as expressions over an environment of names | execution of the generated code compared with evaluation in the scope of the call; the names `arg0`, `arg1`, .. are distinct for every number of arguments |
| C109 | parsers over sequences of expressions and commas | each parser succeeds with a result exactly if the input is a comma separated list of that shape |
| C110 | none new: `Model/Encoder` | size function over types and values in `Spec/WireSize`, compared with the encoder by mutual induction over the nesting |
| C111 | none new: `Model/Encoder` (`none` = the call does not compile) | table of the types a value fits in `Spec/TypeCheck`, compared with the encoder by mutual induction over the nesting. Rust's type checker is not modelled: that `export::u16` takes a `&u16` only is the meaning of `none` in `encodeArg`. That all elements of a slice have the same type is not part of the condition |
| C112 | `Model/Clock` | invariant: one open frame (C53), everything finished is before it; composed with C75 for what is printed |
| C113 | `Model/Attributes` | acceptance stated on the text of the item, by cases on its parts; negation by witness where the book is wrong |
| C114 | the models of C65, C80 and C97; no new code | each field of the default format with `Drawn` (C69, exact) and the condition under which the printer does not panic (C56), then induction over the statements, composed with C75 and C98; for texts that leave colours in effect the exact text of each line and a terminal whose state is threaded through the lines |
| C115 | `Model/Program` and `Program.wire`: the events of a run through the encoder of the logger | invariant over the steps: the bytes are those of whole frames (`wireOf` of C53) and what is left to do fits to whether a frame is open; then C54 and C23; panics with C92 |
| C116 | `Model/Splice`: the tokens of the generated code with the expressions of the user in it | induction over a grammar of expressions as an inductive relation; for `dbg!` inversion: every `match` has its braces, so the tokens between `match` and the last braces are one expression |
| C117 | as C81–C84, with the hint `a` | the text with `a` as a function of the value (`Spec/ImplsAscii`); mutual induction over values shows that the host prints it (`Asc`, `Lemmas/ImplsAscii.lean`); false for IPv6 addresses, pointers, empty byte slices: witnesses + partial |

## Disagreements between the code and the properties

Each of these is proved about the model (theorem in brackets) and can be read off the source.

* `}{{}` and similar strings are accepted although they contain single braces (`C15_fails`).
* `{=1}` makes the format string parser panic in `parse_range` (`C16_fails`); indices near 2^64 overflow. Exactly these strings panic: `C16_exact`, `C16_every_string`.
* The parser looks for `{` also within the text of a parameter it has already read. On the host `{:{=u8}` is therefore two parameters, one with the unknown hint `{=u8` and one of type u8 beginning inside it (example in `Props/GrammarAll.lean`); the macros refuse it.
* `usize`/`isize` are truncated to 32 bits on 64 bit targets (`C20_fails`).
* Enums with exactly 2^8, 2^16 or 2^32 variants: the macro uses the next larger discriminant, the host
  does not (`C24_fails`, `C24_fails_decode`).
* `#[defmt(Debug2Format)]` or `Display2Format` on a field of a native type: the format string says `u8`,
  the code writes a nested value (`C28_fails`).
* Displaying can panic: a width above what `core::fmt` takes, a date out of range, `{=isize:x}`, a
  slice of an enum with an alternative `{=u8}` under `:a` (`C33_fails_*`, `C35_fails`).
* Below a parent hint `:a` nested formats ignore their own hints (`C39_fails`).
* `DEFMT_LOG=trace,app::inner=error` (an example of the book) lets TRACE messages of `app::inner`
  pass (`C45_disagrees`).
* RTT: a buffer of size 1 blocks forever in blocking mode (`C50_size_one`), size 0 is a remainder by
  zero; with the feature `disable-blocking-mode` `flush` returns although a connected host has read
  nothing (`C52_fails_disable_blocking`).
* Log formats: a styled group with a width and styled contents is padded too little (`C56_fails`); the
  message lines `` left: ` `` panic (`C57_fails`); a trailing backslash in brackets panics, every
  rejected format panics (`C58_*`); documented bright colours and groups of groups are rejected, several
  malformed formats are silently cut (`C64_*`); the file name of an absolute path with few components
  is printed with `//`, an empty path panics (`C66_fails_*`).
* Text formatted by `Debug2Format`/`Display2Format` is quoted again on the host under `:?`, in particular
  in named fields of derived types, although the documentation says that hints are ignored (`C71_fails`).
* `assert_eq!`/`assert_ne!` append the values as implicit parameters: with explicit indices in the message
  the macro is refused (`C73_fails`) or shows message arguments as the values (`C73_fails_mixed_up`).
- C76 (not a violation, but weaker than one would expect): the buffer holds the newest `size` bytes, but a host
  that attaches later gets only `total % size` of them, none if `total` is a multiple of `size`, because the read
  cursor is still 0.
- C78: with `--json` and `--show-skipped-frames` (or `--verbose`) the note about a skipped frame is printed to stdout, so
  stdout is no longer a sequence of lines of JSON (`C78_fails_skipped`).
- C79: a host log record whose target starts with `defmt@` and is not from `log_defmt` panics (`C79_fails`).
- C81: `Cell<T>` is shown as `Cell { value: 5 })`; the format string has one `)` too many (`C81_fails_cell`; `C81_cells`: one for each `Cell` in the value).
- C82: a newtype that delegates to an enum-like value as the book recommends is sent as a `FormatSequence` element with a
  discriminant the host does not expect: `Option` values make the frame malformed, an enum without fields is shown as `A|B`
  (`C82_fails`, `C82_fails_enum`).
- C84: logging an empty slice or array of `Infallible` reaches `unreachable!()` on the target (`C84_fails`).
- C85: the stack of namespaces is only cut back when the next namespace begins, so a log statement that comes after a nested
  namespace gets the module path of that namespace (`C85_fails`: a statement of `run` is shown in `run::{closure#0}`).
- C87, C88: a test with `#[ignore]` is called (`let _ = f();`), only its outcome is ignored and the hooks are left out; if it panics the run
  ends (`C87_fails`).
- C89: a function with several roles (`#[test] #[before_each]`) is accepted and has only the last one; it is not run as a test
  (`C89_fails`).
- C92: a panic in a `Format` implementation is not shown by `panic-probe` with `print-defmt`: the logger is taken, so that printing panics
  again and the guard goes to the hard fault (`C92_fails`, `C92_lost`); the same for a log statement in a `Format` implementation
  (`C92_nested`). With `encoding-raw` the log statement that panics can even be shown although it was not completed
  (`C115_raw_unfinished`). Exactly when a message is shown: `C92_shown_iff`.
- C95: in `defmt.x.in` the rule `KEEP(*(.defmt.end .defmt.end.*))` after `__DEFMT_MARKER_END` never places anything, because `*(.defmt.*)`
  before the marker also matches these sections (`C95_end`). So the values of flags (16 bytes each, kept even if unused), the version and the
  encoding count against the limit of the `ASSERT`: a program with 4096 flags and no string does not link (`C95_fails`). Also the message of the `ASSERT`
  names 65534 strings while at most 65532 statics fit (`C95_exact`).
- C96: `decode_format_slice` believes the length in the frame. If the elements have no contents (a type without fields, or any string without
  parameters that corrupted bytes refer to), no further bytes are needed: eight bytes make the host build up to 2^32 - 1 values (`C96_fails`, `C96_factor`).
- C98: with `--watch-elf`, a change of the file (also one that leaves it as it was, e.g. its times) drops the stream decoder with the bytes of an incomplete frame:
  the rest of the frame is then decoded as a frame of its own, i.e. skipped or shown as something else (`C98_lost`). If the build tool is still writing the
  file when the first notification arrives, `defmt-print` ends with an error (`C98_reload`, `C99_failed`).
- C99: with TCP and serial, a connection closed by the peer (`read` returns 0) is never noticed: the loop reads nothing for ever, without a pause (`C99_connection`).
- C99: with `--watch-elf`, the end of the standard input makes `run` return `Ok`, and the loop of `run_and_watch` calls it again, for ever; with `--json` the line
  with the schema version is printed each time (`C99_again`).
- C100: the derived `Deserialize` also accepts an array of five elements as the name of a symbol, in the order in which the decoder declares the fields
  (`package`, `disambiguator`, `tag`, `data`, `crate_name`), which is not the order in which the macros write them.
- C101: channel.rs:27-28 argues that it is enough to look at the mode once per `write_all` because the host changes it only while the device is halted.
  The device can be halted inside of `write_all`. (a) If the running non-blocking write fills the buffer up to the read cursor after the host has
  attached, the next (blocking) write takes the buffer for empty and overwrites what the host is reading: `C101_fails` (`efcdef` is read, `abcdef`
  was written). (b) If the host detaches while a blocking write waits for room, the write waits for ever: `C101_detach`.
* C103: `__DEFMT_MARKER_TIMESTAMP_WAS_DEFINED` and the fixed symbol names are to make two `timestamp!` (loggers, panic handlers) in the crate graph an error. If they are in libraries, the linker takes the first one it finds and does not look at the second: `C103_fails_two_timestamps` is a program that links in two ways, with different timestamps. Host and target agree in both (`C103_host`).
* C104: the host accepts some bytes that no program sends: a `{=__internal_FormatSequence}` directly inside another one (`C104_fails_sequence`), anything in the bytes of a bitfield beyond bit 128 (`C104_fails_padding`), and strings of the wrong kind, for example that of a `write!` in place of a log statement (`C104_fails_kind`). There are no others (`C104_exact`).
* C105: `DEFMT_RTT_BUFFER_SIZE=1` builds and the target blocks for ever (`C105_fails_one`); a value that is not Unicode is silently replaced by 1024 (`C105_fails_unicode`); in a dependency, where Cargo switches lints off, a size of 2^32 and more wraps around and 0 is accepted (`C105_fails_lints`).
* C106: when the emulator is killed by a signal, `status.code()` is `None` and `qemu-run` ends with status 0 (`C106_fails_signal`).
* C107: deriving on a recursive type (`struct Node { next: Option<Box<Node>> }`) gives the requirement `Option<Box<Node>>: Format` for `Node: Format` itself; no finite derivation exists, the compiler reports an overflow (`C107_fails_recursive`). `#[derive(Debug)]` accepts such types. A type parameter named like a native type is taken for it (`C107_fails_shadow`; the source admits this).
* C108: all identifiers of the generated code have the span of the call, so its bindings capture those of the user: `let left_val = 7; assert_eq!(1, 2, "{}", left_val)` shows 1 (`C108_fails`), `unwrap!(Err(5), "{}", _unwrap_err)` shows 5 (`C108_fails_unwrap`), `static S: u8 = 9; timestamp!("{}", S)` is always 0 (`C108_fails_timestamp`). Not modelled, seen while reading: `dbg!(Point { x: 1 })` expands to `match Point { x: 1 } { .. }`, which does not parse (`std::dbg!` accepts it); the checks of `#[panic_handler]` for `no_mangle` and `export_name` do not see `#[unsafe(no_mangle)]`.
* Seen while reading, not modelled: `unimplemented!` is an alias of `todo!`, so it says `not yet implemented` where that of core says `not implemented`.
* C63: `bitflags!` copies only `#[cfg]` attributes of a flag to the table entry, not `#[cfg_attr(.., cfg(..))]`; the result is a compile error, never a wrong table (`C63_cfg`, `C63_cfg_attr`).
* C110: the user guide (`primitives.md`) says that the arguments of a statement with three `{=bool}` "can be compressed into a single byte"; they take three (`C110_bools`). The chapters marked as outdated also describe LEB128, which is not used.
* C111: the user guide (`bitfields.md`) says that a bitfield argument must be large enough to contain the bits. Only the octets from the one with the first bit on are counted: `{=8..24}` takes an `u16` (`C111_bits_book_false`; the missing bits are shown as zero). The same page says that the first three bits of 254 are 5; they are 6.
- **C113** The book says that `#[panic_handler]` cannot be used together with `no_mangle` or `export_name`. The check looks only at attributes whose path is this one identifier (panic_handler.rs:43-62), so `#[unsafe(no_mangle)]` and `#[unsafe(export_name = ..)]`, the only forms of the edition 2024, and those inside a `cfg_attr` after the macro are accepted (`C113_conflicts_false`).
- **C113** `#[panic_handler]` drops the visibility of the function (panic_handler.rs:69-77): a `pub` handler is private afterwards (`C113_visibility_false`).
- **C114** A message that leaves a colour in effect (`info!("\x1b[31mhi")`) colours the rest of its line, the following `println!` and the timestamp of the next line, as nothing is written that ends it before the next level (`C114_fails_spill`); `C114_any_text` is the exact statement.
- **C116** `dbg!` puts the expression between `match` and the braces as it is (dbg.rs:25), without parentheses, so `dbg!(S { x: 1 })` and `dbg!(a == S { x: 1 })` do not compile, other than with `std::dbg!` (`C116_dbg_false`; with parentheses they do: `C116_dbg_parentheses`).
- **C117** With `{:a}` an IPv6 address or a pointer loses the `:02x`/`:x` of its implementation (frame.rs: a parent hint `a` overrides the hint of the parameter), so `::b01` and `::10b` are both shown as `00:00:00:00:00:00:00:111` and a pointer as `0x` with decimal digits; an empty slice of bytes is shown as `[]`, other than with `{=[u8]:a}` (`C117_fails`, `C117_ambiguous`).
- **C64** A misspelt parameter (`{L:blod}`) makes a format be refused, but not inside a group: there the list of pieces just ends at the colon and `parse_argument` throws the rest away (parser.rs:383-414), so the format is accepted without the parameter (`C64_misspelt`, exact in `C64_field_in_group`).
- **C64** Parameters before a group (`{bold:[{L}]}`) and parameters with a percent sign at a specifier in a group (`{[{L%bold}]}`) are accepted and have no effect: `build_log_segment::<false>` returns the only segment and forgets the parameters (parser.rs:336-358). `C64_without_effect`; exact in `Between` of Spec/LogField.lean.
* Log output: the characters of escape sequences in a message are added to its width; a message with more of them than
  `core::fmt` can pad (65535) makes the printer panic (`C65_hidden_panics`; decoder/src/log/format/mod.rs:805-835).

Seen in the source, not proved: `Vec::with_capacity` of an untrusted length also if no element follows; `\r` is lost in the diff of
`assert_eq!`; the `r#` of raw identifiers is shown in derived output; sequences of enum-like formats
(`FormatSequence`) are not decoded with a discriminant.

## Axioms each theorem depends on

As printed by `#print axioms`.

* none: `C24_fails`, `C87_deterministic`
* propext: `C101_detach`, `C101_enter`, `C101_mode`, `C103_fails_two_timestamps`, `C104_fails_kind`, `C105_fails_lints`, `C105_fails_unicode`, `C107_fails_shadow`, `C108_fails`, `C108_fails_timestamp`, `C108_fails_unwrap`, `C110_bools`, `C111_bits_unsigned`, `C113_conflicts_false`, `C113_global_logger_item`, `C113_panic_handler_item`, `C113_panic_handler_symbol`, `C113_visibility_false`, `C116_assert`, `C117_fails`, `C14_empty_text`, `C15_fails`, `C16_fails`, `C22_shown`, `C24_fails_decode`, `C27_order`, `C28_fails`, `C30_bad_index_malformed`, `C33_fails_date`, `C33_fails_isize`, `C33_fails_slice`, `C35_fails`, `C39_debug_defers`, `C39_exact`, `C39_fails`, `C50_never_stuck`, `C52_fails_disable_blocking`, `C52_no_host`, `C55_join`, `C55_recovers`, `C56_fails`, `C58_accepted`, `C58_fails`, `C58_rejected_panics`, `C59_ascii_slice`, `C59_plain`, `C63_cfg_enabled`, `C64_groups`, `C64_ignored_bracket`, `C64_ignored_comma`, `C64_ignored_group`, `C64_ignored_percent`, `C64_many_f`, `C64_many_f_panics`, `C64_misspelt`, `C64_without_effect`, `C66_fails_absolute`, `C66_fails_empty`, `C73_fails_mixed_up`, `C74_panics`, `C77_panics`, `C78_fails_skipped`, `C82_fails_enum`, `C87_fails`, `C89_fails`, `C90_statement`, `C92_defmt_panic`, `C92_fails`, `C92_lost`, `C92_nested`, `C92_shown_partial`
* propext, Quot.sound: `C03_write_splitting_irrelevant`, `C101_attach_partial`, `C101_bounds`, `C101_complete_partial`, `C101_fails`, `C101_flush_partial`, `C101_prefix_partial`, `C102_agree`, `C102_bounds`, `C102_flush`, `C102_memory_never_stuck`, `C102_nothing_lost`, `C102_prefix`, `C102_relaxed_fails`, `C102_stores_miss_visible`, `C103_order`, `C105_fails_one`, `C106_ends`, `C106_fails_signal`, `C107_accepted`, `C107_fails_recursive`, `C107_minimal`, `C107_recursive`, `C109_assert`, `C109_bitflags`, `C109_dbg`, `C109_intern`, `C109_log`, `C109_panic`, `C109_trailing`, `C109_unique`, `C109_write`, `C111_arity`, `C111_bits`, `C111_bits_refused`, `C112_arguments_unordered`, `C113_crate`, `C113_global_logger`, `C114_fails_spill`, `C114_level_ends`, `C115_every_panic`, `C116_log`, `C11_host_accepts_target_strings`, `C13_implicit_numbering`, `C13_number_spec`, `C22_shown_as_text`, `C24_discriminant_width_partial`, `C24_exact`, `C26_fragments`, `C28_accepted`, `C33_fails_width`, `C34_determines`, `C37_bitflags`, `C38_exact`, `C38_reversible`, `C39_inherit`, `C39_own_hint_partial`, `C41_flags_sorted`, `C41_order`, `C41_rejected`, `C42_encoding`, `C42_not_used`, `C42_unambiguous`, `C42_version`, `C45_disagrees`, `C48_copies_miss_unread`, `C48_nothing_lost`, `C48_prefix`, `C48_unread_kept`, `C49_available`, `C49_copies`, `C49_cursors`, `C49_host`, `C50_no_host`, `C50_size_one`, `C51_newest`, `C52_flush`, `C52_flush_returns`, `C55_none`, `C56_no_panic`, `C56_wide_panics`, `C57_no_panic_partial`, `C57_panics_iff`, `C59_line`, `C59_message`, `C59_nested`, `C59_sequence`, `C59_slice`, `C59_timestamp`, `C62_exact`, `C62_only_symbols`, `C62_panics`, `C63_cfg`, `C64_book`, `C64_bright`, `C66_exact`, `C66_last_names_partial`, `C67_assert_eq`, `C67_diff`, `C67_visible`, `C69_unique`, `C71_exact`, `C71_fails`, `C71_verbatim_partial`, `C73_assert_eq_default`, `C74_dbg_values`, `C77_host`, `C79_fails`, `C79_no_panic_partial`, `C81_fails_cell`, `C82_fails`, `C84_fails`, `C84_panics_partial`, `C85_fails`, `C85_file`, `C85_file_exact`, `C87_exact`, `C87_order_partial`, `C88_exit`, `C88_verdict`, `C88_verdict_partial`, `C89_accepted_partial`, `C90_exact`, `C91_only_the_log`, `C92_shown_exact`, `C92_shown_iff`, `C96_content_partial`, `C98_exact`, `C98_lost`, `C98_reload`, `C99_again`, `C99_over`
* propext, Classical.choice, Quot.sound: `C01_frame_roundtrip`, `C02_separator_unambiguous`, `C02_unfinished_frame_has_no_separator`, `C04_frames_independent`, `C05_overhead_bound`, `C06_chunking_irrelevant`, `C06_stream_meaning`, `C07_resynchronise`, `C08_progress`, `C09_chunking_irrelevant`, `C09_raw_stream`, `C100_json`, `C100_line`, `C100_symbol`, `C100_unique`, `C100_written`, `C102_returns`, `C103_complete`, `C103_host`, `C103_links`, `C103_logger`, `C103_panic`, `C103_timestamp`, `C103_two_refused_partial`, `C104_exact`, `C104_fails_padding`, `C104_fails_sequence`, `C105_exact`, `C105_no_overflow`, `C105_obeyed_partial`, `C106_complete_partial`, `C106_error`, `C106_live`, `C106_panic`, `C106_program`, `C106_shown`, `C106_status`, `C107_checks`, `C107_exact`, `C107_text`, `C108_assert`, `C108_binop_exact`, `C108_binop_partial`, `C108_binop_plain`, `C108_dbg`, `C108_dbg_nothing`, `C108_log`, `C108_panic`, `C108_println`, `C108_timestamp_exact`, `C108_timestamp_partial`, `C108_unwrap_exact`, `C108_unwrap_partial`, `C108_unwrap_plain`, `C108_write_exact`, `C108_write_partial`, `C109_binop`, `C10_consumed_exact`, `C110_bytes`, `C110_elements`, `C110_exact`, `C110_fixed`, `C110_framed`, `C110_interned`, `C110_slice_hint`, `C111_bits_book_false`, `C111_exact`, `C111_one_type`, `C112_disjoint`, `C112_during`, `C112_order`, `C112_printed`, `C113_conflicts_partial`, `C113_panic_handler`, `C114_any_text`, `C114_default`, `C114_system`, `C114_terminal`, `C115_defmt_panic`, `C115_lost`, `C115_panic`, `C115_raw_panic`, `C115_raw_shown`, `C115_raw_unfinished`, `C115_raw_wire`, `C115_shown`, `C115_whole_frames`, `C116_dbg_false`, `C116_dbg_parentheses`, `C116_dbg_partial`, `C117_ambiguous`, `C117_ascii_partial`, `C117_plain`, `C12_indices_dense_types_consistent`, `C14_text_roundtrip`, `C15_exact`, `C15_single_braces_rejected_partial`, `C16_every_string`, `C16_exact`, `C16_no_panic_partial`, `C16_reasons_partial`, `C17_frame`, `C17_hints_irrelevant`, `C17_unknown_hint`, `C18_single_parameter`, `C18_write_then_parse`, `C19_numbers`, `C20_exact`, `C20_fails`, `C20_pointer_sized_partial`, `C21_text_and_bytes`, `C22_bitfields`, `C23_log_roundtrip`, `C25_host_index`, `C25_index_order`, `C25_same_bytes`, `C26_preformatted`, `C27_manual`, `C28_roundtrip_partial`, `C28_types`, `C29_frame_from_entry`, `C29_level`, `C29_unknown_index`, `C30_nested_not_log`, `C31_decode_total`, `C31_depth`, `C32_end_to_end`, `C32_raw_end_to_end`, `C33_display_partial`, `C33_exact`, `C33_tame_table`, `C34_signed`, `C34_signed_plain`, `C34_unsigned`, `C35_signed_hex_partial`, `C35_signed_radix`, `C36_seconds`, `C36_seconds_injective`, `C36_time`, `C36_time_injective`, `C40_injective`, `C40_no_special_characters`, `C40_round_trip`, `C41_same_address`, `C43_global`, `C43_unset`, `C44_later_level_overrides`, `C44_later_overrides`, `C44_other_crates`, `C45_exact`, `C45_most_specific_partial`, `C45_off`, `C45_passes`, `C45_some_level`, `C46_no_effect_outside`, `C46_whole_segments`, `C47_raising`, `C47_severity`, `C50_connected`, `C50_mode`, `C50_no_host_bound`, `C53_host_sees_whole_frames`, `C53_no_other_panic`, `C53_not_blocked`, `C53_one_at_a_time`, `C53_reentrant_panics`, `C53_released`, `C53_sections_kept`, `C53_silent_after_panic`, `C53_whole_frames`, `C54_qemu_run`, `C54_raw`, `C54_rzcobs`, `C56_contains_partial`, `C56_exact`, `C56_padded_partial`, `C56_panics_iff`, `C56_width_iff`, `C57_fails`, `C57_lines`, `C58_default`, `C58_exact`, `C58_no_panic_partial`, `C58_oneLine`, `C60_bytes`, `C61_malformed_rejected`, `C62_accepted`, `C62_end_to_end`, `C62_linked`, `C62_messages`, `C62_timestamp`, `C63_cfg_attr`, `C63_flags`, `C63_format_string`, `C63_shown`, `C64_before_group`, `C64_bracket_exact`, `C64_documented_partial`, `C64_exact`, `C64_field_exact`, `C64_field_in_group`, `C64_grammar`, `C64_refused`, `C64_refused_exact`, `C64_unambiguous`, `C65_default`, `C65_exact`, `C65_format_partial`, `C65_hidden_panics`, `C65_oneLine`, `C65_plain`, `C65_plain_any`, `C65_println`, `C65_unique`, `C65_visible_partial`, `C67_assert_eq_message`, `C67_other`, `C68_refused`, `C69_exact`, `C69_off`, `C69_painted_partial`, `C70_debug_text`, `C72_every_string`, `C72_grammar`, `C72_grammar_strict`, `C72_written_accepted`, `C73_assert_eq_text`, `C73_assert_ne_default`, `C73_assert_ne_text`, `C73_binop_accepted_partial`, `C73_dbg`, `C73_default`, `C73_fails`, `C73_message`, `C73_unwrap_default`, `C75_all_printed`, `C75_exclusive`, `C75_flush`, `C75_flush_printed`, `C75_not_blocked`, `C75_printed`, `C75_raw_printed`, `C75_received_prefix`, `C76_attach_bytes`, `C76_flush_printed`, `C76_printed`, `C77_frame`, `C77_kept`, `C77_no_text`, `C77_println`, `C78_line`, `C78_stream_exact`, `C78_stream_partial`, `C78_version`, `C79_exact`, `C80_default`, `C80_system`, `C80_system_json`, `C80_text`, `C81_cells`, `C81_exact`, `C81_shown_partial`, `C82_fails_always`, `C82_newtype_ascii_partial`, `C82_newtype_partial`, `C83_hint`, `C85_exact`, `C85_file_absolute`, `C85_location_partial`, `C85_only_statements`, `C86_incomplete`, `C86_located`, `C86_succeeds_iff`, `C92_bounded`, `C92_every_panic`, `C93_accepted`, `C93_addresses`, `C93_disjoint`, `C93_distinct`, `C93_end_to_end`, `C93_flags`, `C93_index`, `C93_one_timestamp`, `C93_table`, `C93_timestamp`, `C94_levels`, `C94_order`, `C95_end`, `C95_exact`, `C95_fails`, `C95_partial`, `C96_factor`, `C96_fails`, `C97_loaded`, `C97_terminal`, `C98_fuel`, `C99_connection`, `C99_failed`, `C99_finished`, `C99_malformed`
