# Formal model of dnssec-prover in Lean 4 - design

Source modelled: `/repo` (crate `dnssec-prover` 0.5.1): `src/rr.rs`, `src/ser.rs`, `src/base32.rs`,
`src/query.rs`, `src/validation.rs`, `src/crypto/hash.rs`, `src/http.rs`, `wasmpack/src/lib.rs`, `wasmpack/doh_lookup.js`.

## Layout

* `lean/Verif/Model/*.lean` - the model, function by function, each definition citing file and lines.
* `lean/Verif/Spec/*.lean`  - small independent specifications (RFC 4034 orders, key tag, wire encodings, chain
  of trust, alias chains, ...), not using the model's helpers where an independent wording exists. What they take from the model is the
  types (records and their fields), the integer encodings `be16`/`be32`, the accessors `name`, `ty`, `labels()`, `trailing_n_labels`
  (specified by C02) and `contains_type` (specified by C08).
* `lean/Verif/Proofs/*.lean` - helper lemmas.
* `lean/Verif/Props/*.lean` - the property theorems (one section per property id) with non-vacuity examples.

* `lean/Verif/Conformance/*.lean` - the unit tests of `/repo` run on the model (see below); nothing else depends on them.

## Trusted base

* **Lean 4.33.0's kernel.** No compiled code is trusted: no `native_decide`, `bv_decide`, `implemented_by`, `unsafe`. `decide` and
  `decide +kernel` are evaluated by the kernel; they are used for concrete witnesses (refutations and non-vacuity examples) and for
  facts about whole finite types (all bytes, all bits), never for a sample standing for a universal statement.
* **Axioms.** Each theorem depends on a subset of `propext`, `Classical.choice`, `Quot.sound` (check with `#print axioms`). No axioms
  are declared. Mathlib is not imported.
* **The model is a faithful reading of the Rust text.** Every definition in `Verif/Model` cites the lines it models, and
  says where it simplifies. This correspondence is by reading, it is not machine-checked.
  As evidence for it, the unit tests of `/repo/src/validation.rs` and `/repo/src/base32.rs` and the crash inputs in `/repo/fuzz/test_cases`
  are run on the model in `Verif/Conformance`, with their real records and signatures and the real root anchors: SHA-1, SHA-256, RSA and
  ECDSA P-256 are written out there (`Primitives.lean`) and everything is evaluated by the kernel. All of them give what the tests assert
  (accepted records, `valid_from`, `expires`, `max_cache_ttl`, `resolve_name`, and the twelve rejected NSEC variants). These are tests of the
  model, not proofs, and no theorem rests on them. The tests of `query.rs` and `http.rs` need a network and are not among them.
* **The specifications** in `Verif/Spec` say what the English properties say.
* **Rust's semantics of the library functions used** (`str::split`, `splitn`, `make_ascii_lowercase`, `Vec`,
  `from_utf8`, `write!`, `u16::from_str`), as modelled in `Model/Basic.lean`, `Model/Sort.lean`, `Model/Json.lean` and `Model/Http.lean`.
* **`Platform`** (Model/Validation) - the hash functions, the signature checks and the sorting algorithm are parameters. Theorems are universal over it, so no cryptographic assumption is made. In consequence no theorem says
  that signatures cannot be forged; they say which signatures have been checked over which bytes with which keys.

### Modelled

| file | what |
|------|------|
| `src/rr.rs` | all record types, `Name` (constructor, labels, trailing labels), `NSECTypeMask`, `write_u16_len_prefixed_data`, `read_from_data`, `Ord`s, `json`, `key_tag` |
| `src/ser.rs` | everything: integer, name (with compression), type mask readers and writers, record parser and writer, `parse_rr_stream` |
| `src/base32.rs` | everything |
| `src/crypto/hash.rs` | everything, over arbitrary incremental hash engines (C81); elsewhere hashes are one-shot functions in the parameter `Platform` |
| `src/validation.rs` | everything except the `cfg(test)` root anchor and the `Debug`/`Clone` derives |
| `src/query.rs` | `QueryBuf`, `build_query`, `handle_response`, `ProofBuilder`, the framing, `build_proof` for TCP (sync and async have the same text up to `.await`), as a function of what the peer sends and as a process that waits for the connection (C110) |
| `src/http.rs` | `run_server`: the connection task (read loop, request parsing, dispatch, response text), with the resolver as an arbitrary function (C49 to C51) and as a TCP connection (C74), and the accept loop with interleaved tasks (C75), also with clients that read slowly (C122) and limited file descriptors (C121) |
| `wasmpack/src/lib.rs` | everything except `wee_alloc` and the `#[wasm_bindgen]` glue |
| `wasmpack/doh_lookup.js` | everything except `init()` (taken to succeed); `fetch` is an arbitrary function, `btoa` is defined after RFC 4648, and `JSON.parse`/`JSON.stringify` are a parameter, assumed (`Js.Conforms`) to keep values without large numbers |

### Not modelled

* The sockets' own buffers (writes that block, fail or are short: Model/Write, Model/Conn; writes of the TCP driver that block: Model/Duplex), timeouts of the operating system, and `main` of `src/http.rs` (reading the environment and binding the socket). A run of the
  server is any interleaving of steps of its tasks; that the executor and the sockets wake a task when its data has arrived is not modelled.
* The glue of the fuzzers in `fuzz/` (what they call is: C82), `Debug`, `Hash` and `Clone` derives.
* Overflow checks and assertions of debug builds outside parser, writers, key tags, `verify_rr_stream` (Model/Debug, C68)
  and the query and proof building code (Model/DebugQuery, C77); memory exhaustion as such (how much is held: C112, C119); stack depth; running time other than the number of zones processed (C55), the steps of the
  parser and of proof building (C78) and the cryptographic operations of verification (C80).
* That `ring` and `bitcoin_hashes` compute what they should.

## Modelling conventions

* A Rust `&[u8]`/`Vec<u8>`/`String`/`&str` is a `List UInt8` (strings by their UTF-8 bytes). `u8/u16/u32` are `UInt8/16/32`
  with wrapping arithmetic (release profile); `u64` times and `usize` are `Nat`.
* `Result` plus panics is `Res ε α = ok | err | panic`; every index/slice/`copy_from_slice` that could panic is explicit.
* `debug_assert!`s that can fail in the parser are modelled under a flag `dbg : Bool`; theorems quantify over it.
  Elsewhere the model is of the release profile (arithmetic wraps, `debug_assert!` absent); C68 relates it to the debug profile.
* Loops become structural recursion; loops without an obvious bound carry fuel, and either fuel adequacy is proved or
  (for loops which in Rust really may not terminate) running out of fuel is the distinguished value `none` = "has not returned yet".
* Cryptography (`ring` signature verification, SHA-1/SHA-256) is an arbitrary parameter, `Platform`: every theorem holds for all
  such functions; nothing is assumed about them. The one `sort_unstable_by` whose keys can be equal on different values
  (the list of names that need a denial) is an arbitrary sorting function, also a field of `Platform`, with the two facts
  `core` documents: the result is a permutation of the input and is sorted.
* Sorting of lists by a total order is insertion sort; `sorted_perm_unique` proves the algorithm does not matter.
* A reader of a stream (`futures`/`tokio`/`std::io::Read`) is a list of events (bytes available, would block, error, end).
* `cfg(test)` code is not modelled, except base32 `encode` (a test helper, used as the specification side of C15). `cfg(fuzzing)` code is (C82).

## The log of seeded edits

`seeded/LOG.jsonl` has one line for each edit of the model tried in a scratch copy. `lemmas_failed` are the theorems and lemmas whose own
proof no longer checks. `theorems_failed` are the theorems of the manifest that rest, directly or not, on one of those. So a theorem listed
there has lost its proof; that its statement is false of the edited program is not shown by the build. Most of the generated edits (ids
`A1_…`) were stopped at the first module that failed, and for these the lists are what was known at that point. Entries with a `note`
saying so were judged by reading. Edits after which the model itself does not compile are not listed.

## Plan per property (updated as work proceeds)

| id | modelled | proof |
|----|----------|-------|
| C01 | `Name.tryFrom` | iff with an independent validity predicate; idempotence, case folding |
| C02 | `labels`, `trailing_n_labels`, `split`/`splitn` | induction on the label list |
| C03 | `write_rr`, all `write_u16_len_prefixed_data`, full parser | per-type reader/writer inversion; failing inputs (empty TXT, empty labels, >64KiB) as refutations |
| C04 | `parse_rr_stream` | induction over the list; fuel adequacy |
| C05 | writers | arithmetic; refutation for empty TXT |
| C06 | parser with explicit panics | case analysis: exact panic condition; refutation with an NSEC bitmap |
| C07 | name decompression | induction on pointer budget |
| C08,C09 | type masks and bitmaps | bit lemmas over the finite byte domain, induction over windows |
| C10,C11 | TXT reader/writer/order | induction over 255-byte chunks |
| C12,C13 | record orders | order instances; refutations for NS and TXT |
| C14 | `key_tag` | induction over key bytes, Nat arithmetic bound |
| C15 | base32 | per-chunk bit lemmas, induction over chunks |
| C16 | RSA split | case analysis |
| C17 | `nsec_ord` | equals lexicographic order on reversed folded labels; order instances |
| C18 | `resolve_time` | arithmetic; refutation (off by one) |
| C19,C20,C54 | `verify_rrsig` | uniqueness of sorted permutations; spec of signed data; parser inversion |
| C21-C30,C32 | `verify_rr_stream` | loop invariant relating state to an inductive chain-of-trust spec; refutations by concrete streams |
| C31,C55 | zone loop | refutation: fuel-independent non-termination; measure argument for well-formed delegations |
| C33-C35 | `resolve_name` | induction on fuel; refutations for loops, sibling DNAME |
| C36 | `verify_rr_stream` | refutation; partial permutation invariance |
| C37,C38 | `QueryBuf` | refinement to byte lists, refutation for overflow |
| C39 | `build_query` | refinement + decoder |
| C40,C41 | `handle_response` | characterisation |
| C42-C46,C48 | `ProofBuilder` | invariants over response histories |
| C47 | framing/driver | round trip, induction |
| C49-C51 | HTTP | pure request parser + segmentation invariance |
| C52 | `RR::json`, `write!` formatting | RFC 8259 grammar as an inductive relation between text and value |
| C53 | WASM wrapper | queue invariant |
| C54 | `verify_rrsig` signed data | injectivity by inverting the wire encoding |
| C55 | zone loop | family of inputs with exactly 2^n visits; bound (n+1)^L; with one parent for each zone, the invariant that visited and pending names are pairwise different and each has been delegated to by a visited zone, so each is visited once |
| C56 | `verify_rr_stream` | converse of soundness: sufficient conditions, by induction along the zones visited |
| C57 | `process_query_response` | equality with `ProofBuilder` step; refutation at the boundary |
| C58 | `verify_byte_stream` | RFC 8259 grammar; record list by composition with C52 |
| C59 | readers | reader = inductive RFC relation; prefix and truncation by inversion |
| C60 | `write_rr` | equality with the RFC layout; injectivity by parsing back |
| C61 | readers and writers | canonical form as an inductive relation; iff by injectivity of windows, strings and names |
| C62 | `verify_rr_stream` from the root | chain of trust (C21) at the root, unfolded down to bytes |
| C64 | whole pipeline | composition of C59, C21/C27, C33 |
| C65 | `verify_rrsig`, zone loop | congruence of every function in the answers of the signature library |
| C66 | `verify_rr_stream` | from C21; refutation for key sets |
| C67 | builder, driver, readers and `verify_rr_stream` | correctly signed worlds and honest resolvers specified in Spec/World; invariant over sessions with any order of responses, then completeness of validation; the order of signatures over key sets is followed from the responses to the proof, which gives the exact condition |
| C63 | `lookup_doh` on top of the WASM model; HTTP outcomes are an arbitrary function, `JSON.parse`/`stringify` a parameter | induction on rounds against a specification of runs, base64url and GET URLs; JSON texts denote one value (Proofs/JsonUnique) |
| C68 | `verify_rr_stream` and the writers once more, with every sum checked and every `debug_assert` evaluated (Model/Debug) | each checked function equals the unchecked one under explicit bounds; parsed records meet the bounds |
| C69 | `parse_rr_stream` and `verify_rr_stream` against operators (Spec/Operators): keys they own, statements they signed, ideal signatures | signed bytes can be read in one way only, even for names with empty labels; then induction along the chain of trust |
| C70 | the same | C69 for NSEC/NSEC3 records with C28; refutations in worlds of honest operators |
| C71 | `verify_rr_stream` | every function of the zone loop gives the same on the filtered input; invariant on the pending zones |
| C72 | the same | the lemmas of C36 for lists that differ in repeated RRSIGs; refutation by a correctly signed world |
| C73 | `handle_response`, the TCP driver | the exact panics of the record parser (C06) lifted through the record loops, the header and the histories of the driver |
| C74 | the HTTP task with its connection to the resolver | C49 to C51 for the client side, C47 and C67 for the resolver side; refutation by the response of C73 |
| C75 | the accept loop and the connection tasks in small steps (a step is what a task does between two awaits); a run is any sequence of accepts and steps | invariant and outcome function preserved by every step, a decreasing count of waits, and independence of the tasks; refutation by a run with a failing accept |
| C76 | `verify_rr_stream` as before; what it means to combine proofs is in `Spec/Combine.lean` | zones reached, signatures, authenticated records and used signatures of the combination are the unions of those of the parts; then C56, C24, C25, C27; refutations by concrete proofs |
| C77 | `handle_response`, `process_response` and the driver with the parser's assertions and the overflow checks of `write_rr` (`Model/DebugQuery.lean`) | induction over the record loops: only an RRSIG can become too long, so either the loops agree or there is one; refutation by a response with a symbolic signature of 65487 octets |
| C78 | the parser and `handle_response` once more with a counter of the octets touched (`Model/Ticks.lean`) | erasing the counter gives the model; potential functions: room left in the name and pointers left for names, octets left for streams; non-zero octets of a bitmap for the size of what is written; a family of responses that nearly attains the bound |
| C79 | the derived equality of `QueryBuf` (all fields), histories of buffer operations | invariant: the unused part of the stack buffer is zero unless the contents are on the heap; two histories with equal contents on the heap for the refutation |
| C80 | verification once more with a list of the cryptographic operations done (`Model/Crypto.lean`) | erasing the list gives the model; induction over the zone loop with the invariant that pending zones are reached by the chain of trust; the exponential family of C55 for the refutation; with one parent for each zone the work of distinct zones adds up to at most one check per signature; the list is complete because it determines the run (`C80_all_listed`) |
| C81 | `Hasher` with the calls of `update` one by one (`Model/Hasher.lean`), over any incremental hash engine | the pieces concatenate to the message of the RFC; induction over the NSEC3 iterations; the decisions of the model with one-shot hashes are the same |
| C82 | the code under `cfg(fuzzing)` (`Model/Fuzzing.lean`): vectors with capacities, the signature shortcut, the three targets | induction over chunks and rounds; the shortcut is an instance of `Platform`; panics by the exact condition of C73 |
| C83 | `name_contained`, `hash_contained` against whole chains (`Spec/Chain.lean`) | sorted lists: the gap a name falls into; with C28 (no other way to be accepted) and C56 |
| C84 | the DS arm of `verify_rr_stream`, `verify_dnskeys` | two refuting proofs; the rest by C28 |
| C85 | `ProofBuilder` sessions | simulation of the session for one question by that for the other |
| C86 | `verify_dnskeys` | case analysis over all DS sets |
| C87 | `verify_dnskeys`, `verify_rrsig`, `key_tag` | two refuting proofs; arithmetic of the key tag |
| C88 | the writes at the end of the task in http.rs, `write_all` of tokio | induction over the events of the socket |
| C89 | `valid_from`, `expires`, `resolve_time` | RFC 1982 arithmetic as specification; C24 and linear arithmetic |
| C90 | `ProofBuilder`, `verify_rr_stream`, `build_*_proof` | C24, C25, C45 and C48 joined: every signature used was received with a TTL no lower than the one returned |
| C91 | `verify_rr_stream` | induction on the zones reached: in an accepted proof every signature that is good in a part of it is good or of an unsupported algorithm, and the latter is impossible |
| C92 | `read_wire_packet_name`, `Name::try_from` | names on the wire as an inductive relation over label lists; text of a name is injective for labels without dots |
| C93 | `verify_dnskeys`, `verify_rr_stream` | exact condition for the error of a zone; invariant of the zone loop carries it to the stream; the downgrade is a transformation of any accepted proof |
| C94 | the whole path from bytes to `resolve_name`, operators as in C69 | induction on the chain of aliases of C33, C69 for each step and for the records at its end |
| C95 | the whole path from the question to `resolve_name`, worlds and resolvers as in C67 | C67 gives the verified records, the aliases in the answer (specified by labels) give the chain of C33 |
| C96 | `verify_rr_stream` under two platforms with equal cryptography and any two sorting functions that meet the documentation | the loop over zones does not sort needs, so both end in the same state; the loop over needs removes all needs of one name at a time, in the same order of names, and within a name only the zone of the first one counts |
| C97 | sessions of `ProofBuilder` in which any outstanding query is answered next; `build_proof` | the signers asked about are the least set closed under the responses: each session stays within those of a finished one, so none exceeds the cap, and two finished ones have the same |
| C98 | the whole path from bytes to verified records, operators as in C69; `Spec/Agreement.lean` says what it is not to contradict oneself | C69 and C94 for both proofs |
| C99 | `parse_rr_stream` and `verify_byte_stream` on bytes; `Spec/Malleable.lean` relates two streams record by record | induction on the relation; the reader of names on labels that differ in case |
| C100 | the lookup of C63 and the sessions of C67; there is no clock in the model because the code reads none | C24 and C89 for the window; a lookup with expired signatures for the refutation |
| C101 | the verifier of C22 and the order of C17; delegation NSEC records by their types and names (`DelegationNsec`) | the canonical order puts all names below the owner before the next name, then C56; C29 for owners above the zone |
| C102 | the verifier of C22 on the stream without some of its signatures (`withSigs`) | reached zones, key sets and RRsets do not depend on the signatures left out; completeness of the verifier (C76) for acceptance; C24, C25, C27 for the result |
| C103 | the verifier of C22; rollovers as lists of stages, and what caches make of them (`Seen`) | the keys used are determined by their tags, then C26 and C56 |
| C104 | the builder of C39-C48 and the verifier; chains as an answer followed by blocks (`Spec/Rfc9102.lean`) | the question is answered first in every session; each further query is matched with the set it asks for; then C67 |
| C105 | `verify_rrsig` and the verifier; the RFC's "try each matching key" in `Spec/KeyTags.lean` | from the exact condition of C20 and C26 |
| C106 | the built-in anchors and `verify_dnskeys`; the anchors IANA publishes, with their times, in `Spec/RootKeys.lean` (from root-anchors.xml, part of the trusted base of this property) | comparison of the two lists; C105 for key sets; C26 for rejection |
| C107 | `verify_rr_stream` on signatures over a wildcard under its own name (`Spec/OwnWildcard.lean`) | C28 for the need of a denial, C56 for acceptance |
| C108 | `process_response` on any two messages with the same contributions; the plain message in `Spec/PlainMessage.lean` | the relations for names, records and sections are stable under appending octets; acceptance determined by the contributed records (C41) |
| C109 | the parser, `process_response` and `verify_rr_stream` on inputs with records of any type number at any place (`Spec/UnknownTypes.lean`) | from C59 (no such record is read), C46 (exactly what is rejected) and C26 |
| C110 | the TCP driver as a process that waits in `write_all` and `read_exact` (`Model/Duplex.lean`), with a connection of limited size and any resolver (`Spec/Duplex.lean`) | invariant over all interleavings: what has been sent, read, made and written are the frames of one history of the builder; progress and a bound on the steps from it |
| C111 | the same processes as for C110 | the invariant of C110; an execution in which the resolver reads the query and does nothing more |
| C112 | the tasks of the server, and the lengths of all they keep (`Spec.held`); also with responses that are being written (`Spec.kept`, Model/Conn) | an invariant of every task over all runs of the server; the size of the proof by C78, the number of names by C43; a run with `n` idle clients |
| C113 | proofs, parts of proofs (`Spec.ProvesAlone`), operators and their statements (`Spec.Operators`) | completeness of each set from C69; refuted for every proof with the parts of C102, and with honest operators by evaluation |
| C114 | `resolve_name` with a bound on the aliases followed, chains of aliases (`Spec.Chain`), streams of the verifier | the family of zones by induction on the number of digits, accepted by C56 and with the records of C27; the bounds by counting the distinct names visited |
| C115 | operators as in C69, with keys that are no longer theirs and under which everything may verify (`Spec.HonestSince`) | induction on the zones reached: in a proof that is valid after T every signature used expires after T, so statements that vouch for stolen keys are not used |
| C116 | `resolve_name` and chains of aliases (C33) over the verified records of two orders (C36) | aliases, chains and ends of chains carry over from one order to the other where there is one way on; the counterexample by evaluation |
| C117 | `Secure`: RFC 4035 section 5 as one inductive definition over the records of a proof; `Conventional`: what the code does not check does not occur | reached zones (C21) have secure keys by induction; wildcards through C28 and C29; times through C89; conversely, in an accepted proof every signature by a reached zone was checked |
| C118 | the operators of C69, with delegations (`DelegatedBy`) that they respect (`RespectsCuts`) | from C70: what is returned was signed under its own name or for a wildcard; the counterexamples by evaluation |
| C119 | all states that the loop over zones and the loop over signatures pass through (`heldStates`, Model/Held.lean), also on runs that fail or do not end | invariants of all states; the bound on denials from C55_once_partial's tree of zones; the counterexamples by induction on the number of iterations and of zones |
| C120 | the sessions of C67 and histories of C43; a response built from RRSIGs of nothing | the queries of a history are those for its signers (C43); zones needed are above the answer by induction on `Needs`; the witness through `plainMessage` (C108) |
| C121 | the sockets owned by the tasks of Model/Conn (`Conn.sockets`, Model/Files.lean); runs in which accepting fails exactly for want of descriptors | counting over the connections; C122 for each client; silent clients by induction on the number of descriptors |
| C122 | connections with a third phase, writing, in which each wake-up is one write (`Conn.step`, Model/Conn.lean) | induction on the wake-ups of a connection with the invariant of C75 (`Task.Good`, `Task.outcome`); other connections do not touch its state |

Not expressible in the model at all: timing, memory use, TLS/TCP runtime behaviour, correctness of `ring`/`bitcoin_hashes`.

## Disagreements: properties that are false of the code

Each is proved as a theorem `…_fails_…` with a concrete input, beside the part of the property that does hold.

| property | what happens | theorem |
|----------|--------------|---------|
| C03 | an empty TXT record, a name with an empty label and an oversize NSEC3 salt do not survive write and parse | `C03_fails_*`; exactly which: `C03_round_trips_iff` |
| C04 | a written empty TXT record makes the whole stream unparsable | `C04_fails_*` |
| C05 | the RDATA length prefix of an empty TXT record counts a byte that is not written | `C05_fails_*`; exactly when: `C05_length_prefix_iff` |
| C06 | a 47-byte NSEC record panics the parser (bitmap window length over 32); debug assertions panic on trailing bytes | `C06_fails_*` |
| C12 | NS, CNAME, DNAME, NSEC and NSEC3 sets are not in RFC 4034 canonical order | `C12_fails_*` |
| C13 | `Ord` and `PartialOrd` of `RR` disagree on TXT records | `C13_orders_disagree_on_txt` |
| C18 | times before the cutoff resolve one second early (wrap at 2^32-1) | `C18_off_by_one, C18_not_strict` |
| C20 | a correctly signed set of several NS records and a correctly signed empty TXT record are rejected (from C12 and C05) | `C20_fails_*` |
| C22 | containment of a name in a zone is tested as a text suffix: `oogle.com.` can sign for `google.com.` | `C22_fails_for_textual_suffix` |
| C29 | an NSEC at the very name that has the type, and an NSEC of another zone, count as denials of existence | `C29_fails_*` |
| C31 | `verify_rr_stream` never returns when the root signs no DS set or a zone signs a DS set for itself | `C31_fails_*` |
| C34 | a CNAME loop in an accepted stream makes `resolve_name` loop forever | `C34_fails_cname_loop` |
| C35 | DNAME suffixes are compared as text: a DNAME at `c.` applies to `xc.` | `C35_fails_*` |
| C36 | the verdict depends on record order when a key set has a redundant signature by an unanchored key | `C36_fails_for_redundant_signatures` |
| C38 | `QueryBuf::extend_from_slice` panics beyond 65535 bytes | `C38_fails_beyond_u16` |
| C39 | a name with an empty label yields a query for another name | `C39_fails_for_empty_labels`; exactly when: `C39_question_iff` |
| C40 | RCODE 8 is not rejected (the mask `0111_1010_0000_0111` lacks bit 3) | `C40_fails_rcode_8` |
| C45, C46 | a rejected response leaves its first records in the proof | `C45_fails_after_rejected, C46_fails_truncated` |
| C48 | a proof containing an empty TXT record does not parse | `C48_fails_for_empty_txt` |
| C49, C51 | the whole buffer has to be UTF-8, so whether a request is answered depends on TCP segmentation | `C49_fails_for_other_bytes`, `C51_fails_for_other_bytes` |
| C52 | the JSON of an RRSIG is invalid (missing colon, and type "ds"); a backslash in a name is not escaped | `C52_fails_*` |
| C55 | 2^n zone visits for (n+3)^2 records | `C55_fails_exponential` |
| C57 | a response of exactly 65535 bytes is dropped by the WASM builder | `C57_fails_for_largest` |
| C60 | from C05 | `C05_fails_*` |
| C61 | TXT strings are joined and cut again at 255 bytes before the signature is checked, so a good signature over `"a" "b"` is rejected | `C61_fails_split_txt` |
| C66 | an RRSIG over a key set may name any signer (RFC 4035 5.3.1 requires the zone) | `C66_fails_foreign_signer` |
| C67 | the proof of an answer signed by the root zone itself is never verified: verification does not return | `C67_fails_in_root_zone` |
| C67 | ten queries are not enough for five zones below the root | `C67_fails_for_five_zones` |
| C67 | a proof for the type DNSKEY contains the key set twice and a proof for DS lacks the keys of the zone the DS is for, so both are rejected | `C67_fails_for_dnskey`, `C67_fails_for_ds` |
| C67 | a key set signed with a zone signing key too, as RFC 4035 2.2 allows, is rejected if that signature comes before the one by the key the DS record is for: only keys with a DS record are tried, and a signature by none of them counts as wrong | `C67_fails_for_zone_signed_keys` |
| C63 | `lookup_doh` returns whatever validated records the proof contains, not those of the domain and type looked up | `C63_fails_for_other_domain` |
| C63 | the text of an exception is put into the JSON result without escaping | `C63_fails_for_exception_text` |
| C68 | `rrsig.labels + 1` overflows in debug builds for a signed RRSIG that claims 255 labels over no records | `C68_fails_for_255_labels` |
| C68 | the length of an RRSIG with more than 65535 bytes of data overflows in debug builds (release builds write a wrong length) | `C68_fails_for_long_signature` |
| C68 | verifying a signed NSEC3 record that was made with more than 65535 bytes of data panics in debug builds | `C68_fails_for_long_salt` |
| C69 | the operator of `oogle.com.` gets an address for `google.com.` verified although all operators of zones above it are honest | `C69_fails_for_textual_suffix` |
| C70 | the address of `*.com.` is verified for `x.com.`, which has its own address, with the NSEC record of `x.com.` as "denial" | `C70_fails_for_existing_name` |
| C70 | the address of `*.com.` is verified for `y.x.com.`, which has its own address, with an NSEC record whose next name is `y.x.com.` | `C70_fails_below_empty_non_terminal` |
| C72 | a record that occurs twice in a proof makes its good signature fail (RFC 4034 6.3 allows to reject or to remove repetitions) | `C72_fails_for_repeated_record` |
| C73 | a response with an NSEC bitmap window beyond the mask makes `process_response` panic | `C73_fails_nsec_window` |
| C74 | such a response ends the task of the HTTP server, and the client gets no answer | `C74_fails_nsec_window` |
| C75 | a failing `accept` makes `run_server` panic, which ends the process and drops all clients | `C75_fails_when_accept_fails` |
| C36 | two keys with the same key tag: only the first one in the proof is tried | `C36_fails_for_equal_key_tags` |
| C36 | NSEC3 records with three sets of parameters: only the first two in the proof are used | `C36_fails_for_three_parameter_sets` |
| C76 | concatenating proofs that share records gives a rejected proof, because repeated records are not removed before verifying | `C76_fails_for_concatenation` |
| C76 | an unsigned record, ignored in one proof, spoils a signed set of another one when they are merged | `C76_fails_for_unsigned_records` |
| C76 | a bad signature by a zone that one proof does not lead to, ignored in it, makes the merged proof fail if the other leads there | `C76_fails_for_stray_signatures` |
| C77 | an RRSIG whose RDATA exceeds 65535 octets after decompressing the signer panics in debug builds only | `C77_fails_for_long_rrsig` |
| C48 | the same record is written with a length modulo 65536 in release builds, and the proof can not be parsed | `C48_fails_for_long_rrsig` |
| C79 | buffers with the same contents of more than 2048 bytes can compare unequal, because stale bytes in the stack part are compared | `C79_fails_on_the_heap` |
| C80 | a signature is checked again on every visit of its zone | `C80_fails_checked_twice` |
| C80 | (n+3)^2 records can cause 2^n - 1 signature checks | `C80_fails_exponential` |
| C31 | the DNSKEY set of the real root zone with its RRSIG, three records that anyone can fetch, is enough | `C31_fails_real_root` |
| C82 | two fuzz targets panic, and one does not return | `C82_fails_nsec_window`, `C82_fails_hangs` |
| C83 | the last NSEC or NSEC3 record of a zone does not count as a denial, so wildcards are not accepted for names after the last one | `C83_fails_after_last_name`, `C83_fails_outside_hashes`, `C83_fails_smallest_zone` |
| C84 | DS and DNSKEY sets of wildcards are accepted for other names without a denial | `C84_fails_for_ds`, `C84_fails_for_dnskey` |
| C85 | responses to other questions are accepted; the proof is then about another name | `C85_fails_other_question` |
| C61 | next names of NSEC records are lower-cased before the signature is checked, contrary to RFC 6840 5.1 | `C61_fails_capital_next_name` |
| C86 | DS sets with SHA-384 but not SHA-256 digests are Invalid | `C86_fails_without_sha256` |
| C87 | signatures by revoked keys are accepted | `C87_fails_for_data`, `C87_fails_for_keys` |
| C88 | a failing write of the header is ignored; if later writes succeed, the client receives the proof without a header | `C88_fails_after_failed_write` |
| C70 | the same in every zone with NSEC records: for every name before the last one, whether it exists or not | `C70_fails_in_every_zone`, `C70_nsec_denied_iff` |
| C89 | signatures of more than 68 years count as valid; after 2106 `valid_from` is a second early | `C89_fails_long_lifetime`, `C89_fails_overflow` |
| C90 | the TTL of a proof is what the resolver said, even above the original TTL or beyond the expiry of the signatures | `C90_fails_above_original`, `C90_fails_expiry` |
| C29, C36 | when two zones have wildcard records that need the denial of the same name, the denial by one of them serves for both, or not, depending on the order of records | `C29_fails_for_shared_name`, `C36_fails_for_shared_name` |
| C36, C91 | of several good signatures over a key set the first one in the proof determines the validity window | `C36_fails_window`, `C91_fails_window` |
| C92 | a dot inside a label on the wire is taken for a separator: the label `a.b` is read as the labels `a` and `b`; with such dots, length octets 64 to 191 are accepted | `C92_fails_for_dot`, `C92_fails_for_reserved_type`, `C92_fails_for_signature` |
| C93 | `UnsupportedAlgorithm` can be forced for zones with a supported algorithm by replacing the signatures over the key set with a made up one; records signed only with unsupported algorithms give `Invalid` or are left out | `C93_fails_downgrade`, `C93_fails_for_data` |
| C94 | `resolve_name` follows a DNAME for names that are not below its owner, so it answers for a name with records nobody published for it | `C94_fails_for_dname`, `C94_fails_for_textual_suffix` |
| C95 | a DNAME to a name that ends, as text, in the old one (`d.c.` to `ad.c.`) is applied again and again until the name is too long, and nothing is returned | `C95_fails_for_longer_name` |
| C96 | when two zones need the denial of the same name, the order `sort_unstable_by` leaves them in decides whether the proof is accepted | `C96_fails_for_shared_name` |
| C98 | the record of a wildcard and that of the name itself can both be proved for a name, at the same time | `C98_fails_for_wildcards` |
| C100 | records with expired signatures are returned by `lookup_doh` and `verify_byte_stream` | `C100_fails_expired` |
| C101 | the parent's NSEC record at the delegation of a zone is taken as denial of all names in that zone (against RFC 6840 4.1) | `C101_fails_denies_everything`, `C101_fails_in_every_child` |
| C101 | NSEC3 records of `c.` whose hash is written with a `g` at the end are taken for records of `g.c.` | `C101_fails_nsec3` |
| C102 | an address whose denial the verifier takes from another zone cannot be proved without a record of that zone | `C102_fails_for_shared_name` |
| C103 | a proof is rejected because of a signature by a key that is not (yet, or any more) in the key set, beside a good one, as happens in Double-Signature and algorithm rollovers | `C103_fails_unpublished_signer`, `C103_fails_double_signature` |
| C103 | during a Double-KSK rollover a proof is rejected if the signature by the key without a DS record comes first | `C103_fails_double_ksk` |
| C104 | `finish_proof` returns proofs longer than the 65535 octets an authentication chain can have | `C104_fails_length` |
| C105 | of several keys that match a signature only the first in the proof is tried, so signatures by the others make the whole proof invalid | `C105_fails_in_every_zone`, `C105_fails_for_order` |
| C106 | the root key of 2010, whose published validity ended in 2019, is trusted without a limit | `C106_fails_retired` |
| C106 | the root key of 2024, published since, is not built in: proofs with a root key set signed with it alone are rejected | `C106_fails_successor` |
| C106 | while a key is revoked as RFC 5011 prescribes, proofs are rejected if the signature by the revoked key comes first | `C106_fails_revoked_first`, `C106_fails_revoking` |
| C107 | records of a wildcard asked for under the wildcard's own name are taken to be expanded, and rejected unless the proof denies the name they are at | `C107_fails_without_denial`, `C107_fails` |
| C40 | the upper octet of an extended RCODE (RFC 6891), in the additional section, is ignored: responses with BADVERS and the like are accepted if they have answers | `C40_fails_extended_rcode` |
| C109 | a record of a type the crate does not know makes a whole proof or response unusable, even the SOA record in the response for an alias of a name without such records | `C109_fails_in_every_proof`, `C109_fails_in_every_response`, `C109_fails_for_signatures`, `C109_fails_alias_without_records` |
| C111 | `build_proof` has no timeout: with a resolver that reads the query and never answers it waits forever | `C111_fails_silent_resolver` |
| C112 | the server accepts every connection and has no timeout: what it keeps for clients that stop sending, or do not read, has no bound | `C112_fails_idle_clients`, `C112_fails_slow_readers` |
| C113 | an empty answer says nothing about what exists: anybody can leave a record set out of a proof, what remains is accepted, and `resolve_name` returns no such records | `C113_fails_in_every_proof`, `C113_fails_for_tlsa` |
| C114 | `resolve_name` can take exponential time on an accepted proof: 126 DNAMEs of an ordinary zone make it follow 2^126 - 1 aliases | `C114_fails_exponential` |
| C116 | which of two DNAMEs `resolve_name` applies depends on the order of the records in the proof, not on which is above the name | `C116_fails_for_two_dnames` |
| C117 | what `verify_rr_stream` returns may not be secure as RFC 4035 defines it | `C117_fails_for_textual_suffix`, `C117_fails_foreign_signer` |
| C118 | a parent zone's wildcard answers for every name in its child zones, with the NSEC record of the delegation | `C118_fails_through_wildcards` |
| C118 | signatures by a zone for names below its own delegations are accepted, even next to the delegation | `C118_fails_below_delegation` |
| C119 | a proof of four records makes `verify_rr_stream` allocate memory without bound (it loops forever and adds an entry each time) | `C119_fails_unbounded` |
| C119 | memory exponential in the number of zones of a proof whose verification ends | `C119_fails_exponential` |
| C120 | `process_response` asks for the keys and DS set of every signer named in any RRSIG of a response, related to the question or not | `C120_fails_any_names` |
| C121 | clients that connect and send nothing make the server run out of file descriptors, and it panics | `C121_fails_silent_clients` |
