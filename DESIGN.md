# Formal model of qiniu/uip in Lean 4 — design

## Layout

* `lean/Verif/Base/*`   — outcome monad (`Res` = ok / error / Go panic), bit and byte-list arithmetic (no repo content).
* `lean/Verif/Model/*`  — the model, function by function, each definition citing `/repo` file and lines.
* `lean/Verif/Spec/*`   — small independent specifications (address sets as intervals of numbers, prefix sets, row scanning, ...).
* `lean/Verif/Proof/*`  — helper lemmas and invariants.
* `lean/Verif/Props/*`  — the property theorems only (names `Cnn_...`) with non-vacuity examples.

## Modelling conventions

* Go `byte` = `UInt8` (wrap-around arithmetic is native), `[]byte` / `net.IP` / Go `string` = `List UInt8` (Go strings are byte
  strings).  `int` = `Int`/`Nat` unbounded, except where the code truncates (`IntToBinaryBE` to 16/32 bits, `dataType` byte addition).
* Panics (index/slice out of range, nil dereference, failed type assertion) are explicit: `Res.panic`.
* Errors are values of `Err`, named after `db/errors.go`; textual errors are `Err.other`.
* A `[]byte` handed to the library is assumed to have cap = len (slice expressions beyond `len` panic).
* Maps are association lists; where Go's random iteration order is observable the order is an explicit parameter.
* Loops are structural recursion; loops whose termination is not syntactic carry fuel and a theorem shows the fuel suffices.
* Where value slices can be shared between rows (`IpRaw.FieldValues`), the model has an explicit heap of arrays with
  length/capacity so that aliasing through in-place writes and `append` is visible.
* `encoding/json` is a parameter (`enc`/`dec`) of most theorems, which assume `dec (enc m) = m` for the one metadata value involved; `Model/GoJson.lean` models Go's package and C101/C102 discharge the assumption for it (exactly when the texts are UTF-8).

## Per property plan

See `properties.jsonl` for the English text.

| ids | model | proof |
|---|---|---|
| C01–C05 | `Model/GoNet`, `Model/IpNet` | reduction to numbers: value of a byte list, induction on the list |
| C06–C07 | `Range` ops | interval arithmetic over the order theorem C03 |
| C08–C10 | `IPNets` loop | loop invariant (`start` aligned block maximal below `end`), minimality via laminarity of CIDR blocks |
| C11–C14, C21 | `Writer` trie in an array, data chunk, `Save` bytes | refinement: array trie ↔ prefix map, path injectivity invariant; byte layout lemmas |
| C15–C18, C23 | `Reader`, `querier` | walk lemma (depends only on inspected bits), cache decomposition lemma |
| C19, C20 | file layout | length arithmetic on prefixes of the file, JSON parameter |
| C22 | same, and the exact model of C100 | counterexamples to the full claim (each condition), no crash for every file whose metadata agrees with it (`Spec/IpdbFile.lean`) |
| C24–C28 | `BuildIPData` with abstract `find` | loop invariant over marker; composition with C11 |
| C29–C31 | `ParseRule`, `Export` | direct, list induction |
| C32–C34 | `MergeNearNetwork` | fold invariant over C06/C08 |
| C35–C42 | `operate` with heap | fold invariants with sharing coherence; negations by witness where aliasing breaks the claim |
| C43 | packers with heap | invariant over the outputs written so far; witnesses of interference for each condition |
| C44, C45 | plain text codec | split/join inverse lemmas, decimal printing/parsing |
| C46 | same, every prefix of a packed text, JSON of C101 | case analysis on the line the cut falls in; a row cut in its last value is the line of a row with a shorter value |
| C47–C49 | memip codec; the dump of every text | fold invariant, decimal printing/parsing; induction over the lines with three outcomes |
| C50–C58 | awdb nodes, decoder, reader, iterator | arithmetic; structural induction on values; depth-indexed recursion; tree induction |
| C59 | registry | list map laws |
| C60–C61 | Java and Rust readers | equality with Go reader outside witnessed differences |
| C62 | IP text | decimal round trip |
| C63 | awdb files: metadata section, search tree, data section | layout lemmas, tree walk induction |
| C64–C67 | converter main, HTTP server over a file map | composition of dump, operations, pack, open, query |
| C68–C72 | Java and Rust readers function by function | layout of packed files, walk induction, 32-bit arithmetic never wraps below 2 GiB |
| C73–C78 | remaining functions of `ipnet` | byte/bit arithmetic |
| C79–C80 | `CheckV4/CheckV6`, version predicates | from the answers of packed files |
| C81 | `findMap` of packed rows | from the layout of a packed file |
| C82 | `NetworksWithin` + `Next` + `Network` of awdb, any network | walk below the network; IPv4 networks in an IPv6 file are a proved counterexample |
| C83–C84 | awdb `Lookup`, `LookupOffset`, `Decode`, `version` | case analysis over `lookupPointer`, `resolveDataPointer`; metadata of a well formed file |
| C85 | number of nodes and bytes written by `pack` | trie invariant: node labels are exactly the proper prefixes of kept rows |
| C86 | the 16-bit length field of a record | exact answer for rows of any length; counterexample for 65536 bytes or more |
| C87 | `Model/Ipdb/Shared.lean`: the querier over a heap of `IpInfo` objects, callers that ask and assign | refinement of the value model, then an invariant over histories. False for warmed records (negation), exact answer proved |
| C88 | `AttachLineByAsn` over the heap | pass over rows as one column write whose value depends only on the slice; negations for both branches |
| C89 | `writeAll` and `PackFile` over the file map, the whole converter with a list of outputs, the text dumped again | every operation keeps slices inside their arrays and brings in no comma and no spelling of continent (`Keeps`), so every run, of any input, writes its outputs from one such data set; C43's invariant carried along the list of outputs; `EndTable` gives the written data set, C16, C44 and C47 read the files; values without commas stay so through the name tables (computed over the tables); negation for a text before an ipdb |
| C90 | the whole converter with `-line`, both modes | the line step of C40/C41 (exact, with sharing) as a relation between rows, put into the chain of C64; negation by running the operations on a table of two networks with one record |
| C91 | `MergeNearNetwork` on ascending rows | the ranges formed are the maximal runs of the record function, which are unique; each run is split minimally (C09), and any other list of networks splits along the runs |
| C92 | `Model/Awdb/Typed`: the reflection decoder as a function from type, old value and offset to the new value (`decodeT`, `decodeInto`, `LookupT`); what a variable of a type, with its old contents, holds afterwards: `fill` in `Spec/AwdbFill`; plain meaning for new variables: `into` in `Spec/AwdbTyped` | induction on the levels and on the type; concrete runs for the sharing of map elements, general statements for the wrapping of numbers and for offsets |
| C93 | `Model/Clients`: `Query.create(String)` with `lastIndexOf`/`substring`/`readAll`, the Java registry, `from_file`; Go `NewDb` | extension of a name ↔ suffix; composition with C59, C68, C69 |
| C94 | `simpleMain`, `serverMain`, `serve`, Rust `main` over a file map | case analysis over C62, C67, C69; texts beginning with `v` never parse |
| C95 | the whole `converter` run on `.ipdb` inputs with the default rule, answers of the input against answers of the opened output | dump of an answering reader describes its answers (`Describes`), C28-C31 for the default rule, C64 for the rest; example with a packed table |
| C96 | the same on `.awdb` inputs | as C95 over the awdb lookup theorems (C63) and the three shapes of IPv6 dumps (C99): all answers kept, all from `::ffff:0:0` on lost, or no end; the AS number is lost, shown by `C96_all_main`; an example file for each case |
| C97 | `parseData`, `Load`, `LoadDefault` over the transcribed lists and `bufio.Scanner` | induction over the lines: the last line for a name decides; a long line sets the scanner's error |
| C98 | the three constructors on files that are not as packed (`Reader` of Java, Rust, `newReaderFromBytes`) | the size recorded in the metadata against the length; zero filling of `Arrays.copyOfRange` modelled |
| C99 | `dump` of awdb over `Reader.Find`, IPv6 files | invariant of the walk: no found network straddles the marker; the markers outside `::ffff:0:0/96` get 16-byte networks, the walk meets that block only at its first address; strong induction on the running time for the endless case |
| C100 | `Model/Ipdb/ReaderExact.lean`: reader.go and querier.go again, `int` as 64-bit wrap-around, slices with capacity | refinement: each function of the exact model returns what the plain one returns unless that panics; bounds on node numbers from the walk |
| C101 | `Model/GoJson.lean`: encoding/json of go 1.19 (string escaping, scanner with depth limit, number and string decoding, case-folded member names, assignment to structs, slices, maps) | decoding inverts escaping up to `repair` by induction over UTF-8 characters; parser inverts printer by induction on depth; a text that parses still does with bytes added (so no proper prefix parses) |
| C102 | same, applied to the version line of `.scan` | same; all written bytes are at least 0x20 |
| C103 | same, applied to the server's replies | same |
| C104 | version information through dump, operations and packers | each operation and packer keeps it (the line operations add an entry); the metadata of an opened output is the decoded saved one (C101) |
| C105 | `insert`/`Nodes` on any address and mask | the trie walk depends only on the first bits of the address; the row is inserted as the network it means |
| C106 | goroutines as interleaved accesses to the fields of shared `IpInfo` objects (`Model/Threads.lean`) | invariant: objects cached at opening are never written, every other object is used by the goroutine that allocated it; a step counter per goroutine |
| C107 | the outputs as single `Write` calls, each complete, cut short (an error the packer looks at or not) or the last one before the process is killed (`Model/Writing.lean`) | the calls of each packer make up its content; by induction over the calls what is accepted is a beginning, complete where errors are looked at; induction over the outputs against the run on a sound system; C19 for the cut databases |
| C108 | NewDb, QueryStr and the server's handlers over an arbitrary .awdb reader | case analysis on the lookup and on whether the record is a map of texts; each outcome iff |
| C109 | the server as a list of goroutines, one for each request so far, over the memory of `Model/Threads.lean`; events are an arriving request or one step of one goroutine (`Model/Serving.lean`) | the invariant of C106, extended by arriving requests, by induction over the events; a measure for termination |
| C110 | the converter with `encoding/json` (`Model/GoJson.lean`) as its two JSON parameters; `GoWorld` says just that | every text a decoder returns is UTF-8 (induction over the parsed value, `Proof/Json/Texts.lean`), and UTF-8 is what survives (C101); then C64, C95, C96 |
| C111 | `net.ParseIP`, `net.ParseCIDR`, `IP.String`, `IPNet.String` (`Model/GoText.lean`) against a grammar of RFC 4291 texts and RFC 5952 (`Spec/AddrText.lean`) | the parser's loops against the grammar in both directions, by induction over the text and over the derivation; the run of zeros by an invariant of the loop that looks for it |
| C112 | `json.Unmarshal` into MetaData and VersionInfo and `json.Marshal` of them and of IpInfo (`Model/GoJson.lean`) against a grammar of RFC 8259 and a meaning of strings, numbers and members written independently (`Spec/JsonText.lean`) | the scanner against the grammar in both directions (`Proof/Json/Grammar*.lean`), string decoding against the meaning of escapes (`GrammarStr`), case-folded names against Unicode folding (`Members`), assignment member by member by induction over the object (`Decode*`), escaping produces strict strings (`Written`) |
| C113 | the JSON libraries of Java (Gson) and Rust (serde_json) as any function that reads ordinary metadata (`Spec.JsonText.Ordinary`) as it says | the encoder's output is ordinary (C112, explicit object, depth two); Go's decoder is an instance, so the hypothesis is consistent; C60 and C61 follow without an assumption that metadata comes back |
| C114 | files of any origin that follow the format (`Spec.WellFormed`), the record of an address read off the file (`Spec.HasRecord`: path through the table, position, length bytes), read by the Go, Java and Rust models | decomposition of a well-formed file (`Parts`), each reader opens it; the path fixes what each find returns (caches included), the columns fix each info; concrete files for the four conditions |
| C115 | any byte string as a file for the Java and Rust readers, with any JSON decoder and any decoding of texts; crash = `.panic` | opening: case analysis on the length bytes, the decoded sizes and 32-bit wrap-around; queries: every result of find is a number of the table or 0 (induction over the walk), and the record there is readable; nine concrete files show the conditions are needed |
| C116 | every `range` over a map in queries and dumps with its own order (`Model/MapOrder.lean`), a possible order being a list of the entries, each once | lookups depend on the entries only; the field maps are one-to-one, so the filtered order has at most one element; induction over the rounds of the dump; two dumps of a two-language file that differ in the languages |
| C117 | nothing new; `Convertible` bundles the conditions of C95, `SameRelease` and `OneCarrier` are in `Spec/Canonical.lean` | what is written is the packed merge of the settled rows (C64); settled rows of equal answers are equal when the carrier of an AS number is unique; merging ascending rows depends on the mapping only (C91_canonical) |
| C118 | nothing new; `Opens` (the file is opened to this querier under any name) and `PlainRun` (one .ipdb input and output, no line file) in `Props/Canonical.lean` and `Props/Again.lean` | cleaning twice is cleaning once (all normalisation tables checked), so answers of the output are fixed by the pipeline; the output fulfils the conditions of a conversion (C95); equal answers, equal bytes (C117) |
| C119 | nothing new; `packedValues` (the settled record with its district), `javaOf`, `rustOf` in `Props/ConvertedReaders.lean` | the packed table of C64 meets the hypotheses of C68 and C69: rows disjoint, values texts (all name tables checked to be UTF-8); for .ipdb inputs the dumped table describes the answers (C95), and the Go reader spells every continent code out |
| C120 | nothing new; `CarriesVersion`, `Lined`, `TextRun` in `Props/ThroughText.lean` | the text of the converted table is read back as a table that describes the same answers (C89 for ascending tables, C102 for the version line), so both ways the second conversion settles the same records on the same networks, which the packer turns into the same bytes (C117) |
| C121 | `Model/Ipdb/JavaShared.lean`: the Java reader over a heap of `IpInfo` objects, callers that ask and assign | the cache loop keeps references to finished objects, one per record; an invariant over histories says which cell a caller holds. False for warmed records (negation), exact answer proved |
| C122 | `Model/Together.lean`: converters and opening programs as processes, a step one call on a file moving any number of bytes | `rest` (what is left to do in one go) is kept by the steps of the process; other processes change no file it uses; a step count falls. False with a shared output (negation) |
| C123 | the same | outputs are untouched or created once and growing; what a reader has got is a beginning of the old file and a piece of the new; cut `.ipdb` files are refused (C107). Mixtures with an old file: all occur, one answers (negation) |
| C124 | `bufio.Scanner`: buffer, shift, growth, reads of any size, `ScanLines` (`Model/Scanner.lean`), against `Spec/Lines.lean` | an invariant of the buffer (it fits; at the end of the text there is room), induction over a measure that every round lowers |
| C125 | the dumper of `.scan` texts with any exporter, against `Spec/ScanAny.lean` (lines, columns, values under a rule text) | the first lines by cases, the rows by induction; the three outcomes exclude each other because the reading is unique |
| C126 | packing and dumping a `.scan` text, no hypotheses on rows (`Spec/Survive.lean`) | the lines of any rows as the scanner delivers them; from the rows that come back: no newline, hence one line per row, hence no line too long or shortened |
| C127 | `FindMap`, `Query` and dumps of ipdb files of any origin (`Spec/AnyFile.lean`, `Spec/AnyDump.lean`) | the lookup of C114, the columns of a language by `lastOf`, and C25 for the rows |
| C128 | dump, pack and the three readers of `Spec/Readers.lean` composed (`Spec/ConvertReaders.lean`: `Packable`) | C27 for the Go answers, C113 for Java and Rust, and that spelled continents are no codes |

Many properties one would expect are false of this program (crashes on empty tables, shared value slices, truncated records,
lost families).  Such a property is listed with the statement that is true, exactly if possible (the condition under which
the expected one holds, or the result in all cases), proved as such; the expected statement is refuted by a theorem whose name ends in
`_negation` or names the difference, and the note in `MANIFEST.json` says so.

## Trusted base

* Lean 4.33.0's kernel, and the axioms `propext`, `Classical.choice`, `Quot.sound` (every property theorem depends on a subset of
  these three; no other axiom is declared or used).  `decide +kernel` evaluates in the kernel; `native_decide` and `bv_decide`
  are not used.
* The reading of the Go, Java and Rust sources recorded in `lean/Verif/Model`: no source is parsed mechanically.  Each
  definition cites the lines it models; `seeded/LOG.jsonl` records which theorems notice which wrong programs.
* The specifications in `lean/Verif/Spec` and the statements in `lean/Verif/Props`.
* Behaviour of libraries, modelled or assumed:
  * modelled and therefore trusted as transcribed: `net.IP` (`To4`, `To16`, `Mask`, `Equal`), `net.CIDRMask`, `IPMask.Size`, `net.ParseIP`,
    `net.ParseCIDR`, `IP.String`, `IPNet.String`, `strings.Split/SplitN/Join/TrimSpace/Index/ReplaceAll`, `strconv.Itoa/Atoi`,
    `filepath.Ext`, `append`, slice aliasing and (C100) slice capacities, `encoding/json` of go 1.19 (`Model/GoJson.lean`), Java `String.split`, `Arrays.copyOfRange`;
  * parameters with an explicit hypothesis: `encoding/json` outside C101-C103, Gson and serde_json (the metadata that was written is read back,
    for 32-bit node counts and sizes and the file's own fields), Java/Rust UTF-8 decoding (texts are kept), the clock, map iteration
    order (any order), the file system (a map from names to bytes), Java's and Rust's address parsers.

## What is modelled

| code | where |
|---|---|
| Go's `encoding/json` as used | `Model/GoJson` |
| `ipnet/*` | `Model/GoNet`, `Model/IpNet`, `Model/IpNetText` |
| `db/format/ipdb/*` (Go reader, querier with caches, dumper, writer, packer) | `Model/Ipdb/{Fields,Reader,Writer,Querier…}` |
| Java reader, `Query`, `VersionInfo`; Rust reader, `query.rs`, `data.rs` | `Model/Ipdb/{Java,Rust}` |
| `db/field/*`, `db/field/export`, `db/field/data`, `db/field/operate` | `Model/{Export,Names,Operate,Heap…}` |
| `db/format/plain`, `db/format/memip` | `Model/{Plain,Memip}` |
| `db/format/awdb/*` (nodes, untyped decoder, metadata decoding, reader, traversal, querier, dumper) | `Model/Awdb/*` |
| `db/format/formats.go`, the `init` functions, `db/convert`, `db/query`, `cmd/converter`, `cmd/simple`, the handler of `cmd/server` | `Model/{Registry,Convert,Query,Program,Writing,Threads,Together}` |

## What is not modelled

* `db/format/generate` and `db/field/export/export_test.go` do not compile at this commit; `db/format/qnip` holds only a comment.
* awdb decoding into targets with unexported fields other than `big.Int`, fixed-size arrays, maps with keys that are not strings,
  non-empty interfaces and functions; what a target holds after an error; floating-point arithmetic (floats are their bits).
* Concurrent use other than concurrent queries and requests (C106, C109) and processes that share files (C122, C123);
  the histories of C87 are sequences of whole calls; memory exhaustion (for example a huge `Version.Count`).
* Loss of data the system has accepted (power failures), errors of `Close`, reads that fail halfway.
* `sort.Sort`, `Build`, `String`/`toString`/`fmt` methods, sockets and the HTTP server around the handlers.
* Integers are unbounded except where a conversion or a 32-bit type makes the width visible; hypotheses bound file sizes
  (below 4 GiB for Go, 2 GiB for Java and Rust) where this matters.
