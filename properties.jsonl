{"id": "C01", "title": "Name construction accepts exactly the documented names, case-insensitively", "statement": "Name::try_from(s) succeeds exactly when s is non-empty, ends in '.', is at most 255 bytes, consists only of printable ASCII other than '\"', and every dot-separated label is at most 63 bytes; the resulting Name's text is s in ASCII lower case, so two inputs differing only in case give equal Names, and a Name's own text is always accepted back unchanged.", "quantifier": "every string", "why_tests_cant": "the input space is all strings; tests only use a few literals", "anchors": ["src/rr.rs: Name, TryFrom<String> for Name", "src/ser.rs: read_wire_packet_name"]}
{"id": "C02", "title": "labels() and trailing_n_labels() count and cut at label boundaries", "statement": "For every Name without empty labels, labels() is the number of its labels (never truncated by the u8 cast), trailing_n_labels(n) is None exactly when n > labels(), and otherwise it is exactly the last n labels of the name, itself a valid name with n labels.", "quantifier": "every Name and every n", "why_tests_cant": "all names x all n", "anchors": ["src/rr.rs: Name::labels, Name::trailing_n_labels"]}
{"id": "C03", "title": "write_rr then parse gives the same record back", "statement": "For every record, parsing the bytes write_rr produces (followed by arbitrary further bytes) yields that very record and TTL and leaves exactly the further bytes.", "quantifier": "every record of every supported type, every ttl, every suffix", "why_tests_cant": "unbounded payload sizes, names, bitmaps; tests only round-trip fixed vectors", "anchors": ["src/ser.rs: write_rr, parse_wire_packet_rr, parse_rr", "src/rr.rs: write_u16_len_prefixed_data, read_from_data of all types"]}
{"id": "C04", "title": "A proof stream is just concatenation: parse_rr_stream inverts a sequence of write_rr calls and is compositional", "statement": "parse_rr_stream of the concatenation of write_rr outputs is exactly the list of records in order; and if a and b both parse as streams, a++b parses as the concatenation of both lists; parse_rr_stream succeeds only if every input byte was consumed by some record.", "quantifier": "every list of records / every pair of byte strings", "why_tests_cant": "unbounded list lengths", "anchors": ["src/ser.rs: parse_rr_stream, write_rr"]}
{"id": "C05", "title": "The RDATA length prefix equals the number of RDATA bytes written", "statement": "For every record, the two-byte big-endian length written by write_u16_len_prefixed_data equals the number of bytes that follow it.", "quantifier": "every record", "why_tests_cant": "all payload lengths, incl. empty and > 65535-byte payloads", "anchors": ["src/rr.rs: write_u16_len_prefixed_data (all types)", "src/ser.rs: name_len, nsec_types_bitmap_len"]}
{"id": "C06", "title": "Parsing untrusted bytes never panics", "statement": "parse_rr_stream and response parsing return Ok or Err for every byte string; they never panic (index out of range, failed assertion).", "quantifier": "every byte string", "why_tests_cant": "the byte string is attacker-chosen", "anchors": ["src/ser.rs: parse_rr_stream, read_nsec_types_bitmap, do_read_wire_packet_labels", "src/rr.rs: read_from_data"]}
{"id": "C07", "title": "Compressed names: none in proof streams, bounded and correct in responses", "statement": "A name in a proof stream that uses a compression pointer is rejected; in a DNS message pointers may point only inside the message, at most 255 pointers are followed, decoding always terminates, and any accepted name satisfies the Name rules; an uncompressed name decodes to its labels joined with dots.", "quantifier": "every byte string and every message", "why_tests_cant": "pointer graphs, loops and chains are unbounded in shape", "anchors": ["src/ser.rs: do_read_wire_packet_labels, read_wire_packet_name, parse_rr"]}
{"id": "C08", "title": "NSecTypeMask membership", "statement": "NSecTypeMask::from_types(ts).contains_type(t) is true exactly when t is in ts; new() contains nothing.", "quantifier": "every list of types and every type", "why_tests_cant": "65536 types x arbitrary lists", "anchors": ["src/rr.rs: NSecTypeMask::new, from_types, contains_type"]}
{"id": "C09", "title": "NSEC type bitmap encoding round-trips and is canonical", "statement": "For every type mask, reading the written bitmap gives the same mask; the written bitmap has exactly the length announced, consists of windows in strictly increasing order, each with 1..32 bytes and a non-zero last byte (RFC 4034 4.1.2).", "quantifier": "every 65536-bit mask", "why_tests_cant": "2^65536 masks", "anchors": ["src/ser.rs: write_nsec_types_bitmap, nsec_types_bitmap_len, read_nsec_types_bitmap"]}
{"id": "C10", "title": "TXT parsing concatenates the character-strings; encoding chunks at 255", "statement": "Reading TXT RDATA yields the concatenation of its character-strings and fails exactly when a length byte overruns the data; writing non-empty data emits maximal 255-byte character-strings whose concatenation is the data.", "quantifier": "every byte string", "why_tests_cant": "all lengths and chunkings", "anchors": ["src/rr.rs: Txt::read_from_data, Txt::write_u16_len_prefixed_data"]}
{"id": "C11", "title": "TXT records sort in canonical wire order", "statement": "For TXT records at one name the order used when checking signatures equals the lexicographic octet order of their wire RDATA (RFC 4034 6.3), and the comparison never indexes out of range.", "quantifier": "every pair of data strings", "why_tests_cant": "edge cases at every multiple of 255", "anchors": ["src/rr.rs: PartialOrd for Txt"]}
{"id": "C12", "title": "RRsets are put in canonical RDATA order before checking a signature", "statement": "For two records of the same name and type, the order used for signing equals the lexicographic octet order of their wire RDATA (RFC 4034 6.3), for every supported type.", "quantifier": "every pair of records of every type", "why_tests_cant": "all record contents", "anchors": ["src/rr.rs: derived PartialOrd of all record types", "src/validation.rs: verify_rrsig (records.sort_unstable)"]}
{"id": "C13", "title": "Comparison operators and Ord agree and form a total order on records", "statement": "For all records a, b: a.partial_cmp(b) == Some(a.cmp(b)), and the order is total, transitive and Equal only on equal records.", "quantifier": "every pair/triple of records", "why_tests_cant": "all pairs", "anchors": ["src/rr.rs: Ord/PartialOrd for RR, Txt"]}
{"id": "C14", "title": "key_tag is the RFC 4034 Appendix B key tag of the key's wire RDATA", "statement": "For every DnsKey whose key is at most 65535 bytes key_tag() equals the Appendix B checksum over the wire RDATA, with no 32-bit overflow in the accumulation.", "quantifier": "every DnsKey", "why_tests_cant": "all key lengths incl. odd", "anchors": ["src/rr.rs: DnsKey::key_tag"]}
{"id": "C15", "title": "base32hex decoding is exact", "statement": "decode(encode(d)) = d for all d, and decode(s) = Ok(d) exactly when s, upper-cased, is the encoding of d: no non-canonical string is accepted and case is ignored.", "quantifier": "every byte string / every text", "why_tests_cant": "all lengths mod 5/8 and all trailing bits", "anchors": ["src/base32.rs: decode, encode"]}
{"id": "C16", "title": "RSA public keys are split exactly as RFC 3110 says", "statement": "Splitting a DNSKEY public key into exponent and modulus never reads out of range; on success header ++ exponent ++ modulus is the key, the exponent has the announced length and the modulus is non-empty; it fails exactly when the key is at most 3 bytes or the announced exponent leaves no modulus.", "quantifier": "every byte string", "why_tests_cant": "all lengths and both header forms", "anchors": ["src/validation.rs: bytes_to_rsa_pk"]}
{"id": "C17", "title": "The name order used for NSEC is the RFC 4034 6.1 canonical order", "statement": "Comparing names for NSEC compares their label sequences right to left, each label as case-folded octets, shorter-first; it is a total order and two names are Equal exactly when they are equal ignoring case.", "quantifier": "every pair/triple of strings", "why_tests_cant": "all pairs", "anchors": ["src/validation.rs: nsec_ord"]}
{"id": "C18", "title": "RRSIG timestamps are resolved to the right instant", "statement": "The u64 time computed from a 32-bit RRSIG time is the unique instant congruent to it mod 2^32 in the 2^32-second window starting at the 1997 cutoff; it preserves order within that window.", "quantifier": "every u32", "why_tests_cant": "all 2^32 values incl. the wrap point", "anchors": ["src/validation.rs: resolve_time"]}
{"id": "C19", "title": "Checking a signature does not depend on the order in which the RRset is presented", "statement": "For any permutation of the records of an RRset verify gives the same answer.", "quantifier": "every permutation of every RRset", "why_tests_cant": "n! orders", "anchors": ["src/validation.rs: verify_rrsig", "src/rr.rs: PartialOrd"]}
{"id": "C20", "title": "A signature is accepted only if a proper zone key signed the RFC 4034 canonical form of exactly that RRset", "statement": "An RRSIG over a set of records is accepted exactly when all records have the covered type, and the first presented key with matching key tag, protocol 3, the zone flag and the RRSIG's algorithm verifies the signature over RRSIG-RDATA (minus signature) followed by each record in sorted order in canonical form (wildcard owner when labels is smaller, original TTL); keys that are not zone keys or of another protocol/algorithm are never used; an unsupported algorithm is reported as such, never as success.", "quantifier": "every RRSIG, key set, record set and every signature scheme", "why_tests_cant": "all inputs and all signature oracles", "anchors": ["src/validation.rs: verify_rrsig"]}
{"id": "C21", "title": "Chain of trust: every verified record is authenticated from the root anchors", "statement": "If verify_rr_stream returns Ok, every returned record is in the input and is covered by an RRSIG in the input that verifies under a DNSKEY of the signer zone, and that zone is reached from the root: the root's keys match a root anchor digest and sign the root DNSKEY set; each further zone's key set is signed by one of its keys matching a digest in a DS set signed by an already authenticated zone.", "quantifier": "every input record list and every hash/signature oracle", "why_tests_cant": "adversarial streams of any length and shape", "anchors": ["src/validation.rs: verify_rr_stream, verify_dnskeys, verify_rrsig, root_hints"]}
{"id": "C22", "title": "A zone can only speak for names at or below it", "statement": "Every verified record's owner name is equal to, or a label-wise descendant of, the zone whose key signed it.", "quantifier": "every input", "why_tests_cant": "adversarially chosen sibling names", "anchors": ["src/validation.rs: verify_rr_stream (rrsig.name.ends_with(zone))"]}
{"id": "C23", "title": "Contents of verified_rrs", "statement": "verified_rrs contains only records of the input, no duplicates, and no RRSIG, DNSKEY, DS, NSEC or NSEC3 records.", "quantifier": "every input", "why_tests_cant": "all inputs", "anchors": ["src/validation.rs: verify_rr_stream, VerifiedRRStream"]}
{"id": "C24", "title": "Validity window", "statement": "On Ok, valid_from is the latest inception and expires the earliest expiration over all RRSIGs that were used (zone key sets, delegations, data and denial records), and valid_from < expires.", "quantifier": "every input", "why_tests_cant": "all inputs", "anchors": ["src/validation.rs: verify_rr_stream, resolve_time"]}
{"id": "C25", "title": "max_cache_ttl is the minimum original TTL of all RRSIGs used", "statement": "On Ok, max_cache_ttl is the least orig_ttl over all RRSIGs used.", "quantifier": "every input", "why_tests_cant": "all inputs", "anchors": ["src/validation.rs: verify_rr_stream"]}
{"id": "C26", "title": "Fail closed: any bad signature by an authenticated zone rejects the whole stream; unsupported algorithms are ignored", "statement": "If an RRSIG in the input names an authenticated zone as signer and does not verify (other than for an unsupported algorithm), or covers RRSIG records, or its owner name does not end in the zone's name (as text; label-wise containment is C22), or the zone's own key set is not authenticated, verify_rr_stream does not return Ok; an RRSIG with an unsupported algorithm contributes nothing.", "quantifier": "every input", "why_tests_cant": "position of the bad record is arbitrary", "anchors": ["src/validation.rs: verify_rr_stream"]}
{"id": "C27", "title": "Completeness: every record signed by an authenticated zone is returned", "statement": "On Ok, every input record (other than DNSSEC bookkeeping types) covered by a supported RRSIG of an authenticated zone is in verified_rrs; and records covered by no such RRSIG are not.", "quantifier": "every input", "why_tests_cant": "all inputs", "anchors": ["src/validation.rs: verify_rr_stream"]}
{"id": "C28", "title": "A wildcard-expanded record needs an authenticated denial record", "statement": "If a returned record was accepted through a wildcard signature (fewer labels in the RRSIG), then the input contains an NSEC or NSEC3 record, itself authenticated, whose range covers or whose owner matches the next-closer name.", "quantifier": "every input", "why_tests_cant": "all inputs", "anchors": ["src/validation.rs: verify_rr_stream (rrs_needing_non_existence_proofs)"]}
{"id": "C29", "title": "Denial records really deny: an NSEC/NSEC3 showing the name exists, or of another zone, is not a denial", "statement": "A denial record used for a wildcard expansion must come from the zone that signed the wildcard and must show that the next-closer name does not exist (strictly between owner and next) or has no record of the type.", "quantifier": "every input", "why_tests_cant": "attack inputs need exact coincidences", "anchors": ["src/validation.rs: verify_rr_stream (name_contained, hash_contained, ends_with)"]}
{"id": "C30", "title": "NSEC3 limits", "statement": "No NSEC3 record with a hash algorithm other than 1, with non-zero flags or with more than 2500 iterations is ever used as a denial; at most two distinct (iterations, salt) pairs are hashed per denied name.", "quantifier": "every input", "why_tests_cant": "all inputs", "anchors": ["src/validation.rs: verify_rr_stream (nsec3params_to_name_hash)"]}
{"id": "C31", "title": "verify_rr_stream terminates on every input", "statement": "For every input list verify_rr_stream returns.", "quantifier": "every input", "why_tests_cant": "non-termination cannot be shown absent by tests", "anchors": ["src/validation.rs: verify_rr_stream ('next_zone loop)"]}
{"id": "C32", "title": "DS digest policy", "statement": "A SHA-1 DS is never relied on when a SHA-256 or SHA-384 DS is present for the zone; keys are only accepted if the digest of owner name and key RDATA equals the DS digest with matching key tag and algorithm; an empty DS set is Invalid and a set with only unknown digest types is UnsupportedAlgorithm.", "quantifier": "every DS set, key set, hash oracle", "why_tests_cant": "all DS/key combinations", "anchors": ["src/validation.rs: verify_dnskeys"]}
{"id": "C33", "title": "resolve_name returns exactly the verified records at the end of the alias chain", "statement": "If resolve_name(n) returns, there is a chain of CNAME/DNAME steps through verified records from n to a final name that has no CNAME (nor applicable DNAME), and the result is exactly the verified records at that final name, in order; no CNAME or DNAME record is ever returned; with no alias at n it is exactly the records at n.", "quantifier": "every verified record list and name", "why_tests_cant": "chain length unbounded", "anchors": ["src/validation.rs: VerifiedRRStream::resolve_name"]}
{"id": "C34", "title": "resolve_name terminates", "statement": "resolve_name returns for every verified stream and name.", "quantifier": "every verified record list and name", "why_tests_cant": "loops need adversarial CNAMEs", "anchors": ["src/validation.rs: VerifiedRRStream::resolve_name"]}
{"id": "C35", "title": "DNAME redirects exactly the proper descendants of its owner", "statement": "A DNAME at d is applied only to names strictly below d (label-wise), replacing the suffix d by the target; an over-long result gives an empty answer.", "quantifier": "every name and DNAME", "why_tests_cant": "suffix coincidences", "anchors": ["src/validation.rs: VerifiedRRStream::resolve_name"]}
{"id": "C36", "title": "verify_rr_stream does not depend on the order of the input records", "statement": "Permuting the input list does not change acceptance nor (up to order) the verified records, times and TTL.", "quantifier": "every input and permutation", "why_tests_cant": "n! orders; repo tests shuffle randomly", "anchors": ["src/validation.rs: verify_rr_stream"]}
{"id": "C37", "title": "QueryBuf is a byte vector", "statement": "For any sequence of operations whose total size is at most 65535 bytes the contents of a QueryBuf (deref, into_vec, len) equal the concatenation of what was written, independently of the stack/heap threshold; new_zeroed(n) is n zero bytes.", "quantifier": "every operation sequence and every stack limit", "why_tests_cant": "all boundary crossings", "anchors": ["src/query.rs: QueryBuf"]}
{"id": "C38", "title": "Pushing beyond u16::MAX into a QueryBuf does not panic", "statement": "extend_from_slice never panics, even when the total exceeds u16::MAX (documented).", "quantifier": "every buffer and slice", "why_tests_cant": "sizes above 65535", "anchors": ["src/query.rs: QueryBuf::extend_from_slice"]}
{"id": "C39", "title": "Queries are well-formed DNS messages asking for exactly the name and type", "statement": "build_query(n, ty) is a 12-byte header (id 0, RD|AD, one question, one additional), then a question that decodes to n, ty, class IN, then an EDNS OPT record with the DO bit; it is at most 283 bytes long and building it never panics.", "quantifier": "every name and type", "why_tests_cant": "all names", "anchors": ["src/query.rs: build_query, ProofBuilder::new"]}
{"id": "C40", "title": "A response is used only if its header says it is a complete, successful, authenticated answer", "statement": "process_response fails unless id is 0, QR set, opcode 0, TC clear, RCODE 0, AD set, exactly one question and at least one answer.", "quantifier": "every byte string", "why_tests_cant": "65536 flag words x all bodies", "anchors": ["src/query.rs: handle_response"]}
{"id": "C41", "title": "What a response contributes to the proof", "statement": "On success the bytes appended to the proof are exactly the re-encoding of all answer records followed by those authority records that are NSEC, NSEC3 or RRSIGs covering those types, in order; additional records and other authority records are dropped; the returned TTL is the minimum over the included records and the key names are exactly the signer names of included RRSIGs.", "quantifier": "every response", "why_tests_cant": "all responses", "anchors": ["src/query.rs: handle_response"]}
{"id": "C42", "title": "At most ten queries, and every driver loop ends", "statement": "For every sequence of responses a ProofBuilder issues at most 10 queries in total, awaiting_responses becomes false after at most 10 successful responses, whatever the resolver sends.", "quantifier": "every response history", "why_tests_cant": "adversarial resolvers", "anchors": ["src/query.rs: ProofBuilder, build_proof_impl, MAX_REQUESTS"]}
{"id": "C43", "title": "Every signer is asked for exactly once", "statement": "Each signer name occurring in an included RRSIG is queried for DNSKEY exactly once over the whole history (and for DS exactly once unless it is the root), until the query cap is exceeded.", "quantifier": "every response history", "why_tests_cant": "histories are unbounded", "anchors": ["src/query.rs: ProofBuilder::process_response"]}
{"id": "C44", "title": "finish_proof succeeds exactly when every issued query has been answered and the cap was not exceeded", "statement": "finish_proof returns Ok iff the number of successful process_response calls equals the number of queries issued and no more than 10 were needed; then the proof is the concatenation of what all responses contributed.", "quantifier": "every history", "why_tests_cant": "histories", "anchors": ["src/query.rs: ProofBuilder::finish_proof"]}
{"id": "C45", "title": "The proof TTL is the lowest TTL of all records in the proof", "statement": "finish_proof's TTL is the minimum TTL of all records written into the proof.", "quantifier": "every history", "why_tests_cant": "histories incl. failed responses", "anchors": ["src/query.rs: ProofBuilder::process_response, finish_proof"]}
{"id": "C46", "title": "A rejected response has no effect", "statement": "If process_response returns Err the builder is unchanged.", "quantifier": "every builder state and response", "why_tests_cant": "partial failures at any record", "anchors": ["src/query.rs: ProofBuilder::process_response, handle_response"]}
{"id": "C47", "title": "TCP framing", "statement": "Reading a frame written by send_query gives back exactly the query and leaves the rest of the stream; a driver using the stream sees responses in order regardless of what follows.", "quantifier": "every message of at most 65535 bytes and every following stream", "why_tests_cant": "all lengths", "anchors": ["src/query.rs: send_query, read_response, build_proof_impl"]}
{"id": "C48", "title": "A finished proof parses to exactly the records collected", "statement": "If finish_proof returns Ok((proof, _)), parse_rr_stream(proof) returns the included records of all responses in order.", "quantifier": "every history", "why_tests_cant": "end-to-end over all responses", "anchors": ["src/query.rs: ProofBuilder", "src/ser.rs: parse_rr_stream, write_rr"]}
{"id": "C49", "title": "HTTP request handling does not depend on TCP segmentation", "statement": "The server's decision depends only on the bytes of the request line, not on how they were split into reads.", "quantifier": "every request and every segmentation", "why_tests_cant": "2^n segmentations", "anchors": ["src/http.rs: run_server"]}
{"id": "C50", "title": "HTTP responses are well framed", "statement": "Every response carries a Content-Length equal to the number of body bytes that follow the blank line, and the proof body is passed through unmodified with the proof's TTL as max-age.", "quantifier": "every request and proof", "why_tests_cant": "all proofs", "anchors": ["src/http.rs: run_server"]}
{"id": "C51", "title": "HTTP dispatch", "statement": "A proof is requested from the resolver exactly when the request line is GET /dnssecproof?... HTTP/1.0|1.1 with a valid domain d and type t in TXT, TLSA, A, AAAA (case-insensitive), for exactly that name and type; everything else gets an error status and triggers no query.", "quantifier": "every request line", "why_tests_cant": "all requests", "anchors": ["src/http.rs: run_server"]}
{"id": "C52", "title": "json() output is valid JSON that decodes to the record", "statement": "For every record json() is valid JSON whose string fields decode to the record's own name and contents.", "quantifier": "every record", "why_tests_cant": "all names and contents", "anchors": ["src/rr.rs: json of all types, NSecTypeMask::write_json"]}
{"id": "C53", "title": "WASM driver queue", "statement": "get_next_query hands out every issued query exactly once in FIFO order, and a malformed response changes nothing in the queue.", "quantifier": "every call history", "why_tests_cant": "histories", "anchors": ["wasmpack/src/lib.rs: init_proof_builder, process_query_response, get_next_query, get_unverified_proof"]}
{"id": "C54", "title": "Signed bytes determine the RRset", "statement": "For a given RRSIG, two different non-wildcard RRsets never have the same signed bytes, so a signature vouches for one RRset only.", "quantifier": "every pair of RRsets", "why_tests_cant": "all pairs", "anchors": ["src/validation.rs: verify_rrsig (signed_data)"]}
{"id": "C55", "title": "verify_rr_stream does bounded work", "statement": "verify_rr_stream does a reasonable amount of work: the number of zones it processes is bounded by a polynomial in the number of input records with a small degree that does not depend on the length of names (every zone is processed at most once per delegation to it).", "quantifier": "every input", "why_tests_cant": "worst cases are adversarial; the exponential blow-up only shows on specially nested delegations", "anchors": ["src/validation.rs: verify_rr_stream (pending_ds_sets)"]}
{"id": "C56", "title": "Honest proofs are accepted", "statement": "If all zones reached from the root are in order (key sets authenticated, every signature by the zone is for a name within it and either good or of an unsupported algorithm), the root delegates, no zone delegates to itself, some record other than DS is authenticated, all signatures used share a moment of validity and every wildcard expansion comes with a matching denial, then verify_rr_stream succeeds. Without parameter clashes in the denials these conditions are also necessary.", "quantifier": "every input list, in any order", "why_tests_cant": "acceptance must hold for every zone layout and record order, not for recorded proofs", "anchors": ["src/validation.rs: verify_rr_stream"]}
{"id": "C57", "title": "WASM and native builders process the same responses", "statement": "process_query_response does with every DNS message a resolver can send (up to 65535 bytes) what ProofBuilder::process_response does, and queues the resulting queries.", "quantifier": "every builder state and every message", "why_tests_cant": "the boundary of the message size", "anchors": ["wasmpack/src/lib.rs: process_query_response"]}
{"id": "C58", "title": "verify_byte_stream returns JSON for the verified records", "statement": "For every byte stream verify_byte_stream returns valid JSON: an object with the error, or one with exactly the validity window, cache TTL and verified records that verify_rr_stream returns for the parsed stream.", "quantifier": "every byte stream", "why_tests_cant": "all streams, names and contents", "anchors": ["wasmpack/src/lib.rs: verify_byte_stream, do_verify_byte_stream"]}
{"id": "C59", "title": "Records are read exactly as the RFCs say", "statement": "parse_rr_stream and the response reader accept a record at a place in a message exactly if there is one there in the format of RFC 1035/3596/4034/5155/6672/6698, and return that record (labels being joined with dots to names, see C92); other classes, unknown types and records cut short are rejected; how a stream is cut into records does not depend on what follows.", "quantifier": "every byte string and every position", "why_tests_cant": "all inputs, all truncation points", "anchors": ["src/rr.rs: parse_rr_stream, parse_rr", "src/ser.rs: parse_wire_packet_rr"]}
{"id": "C60", "title": "write_rr writes the RFC format", "statement": "For every record and TTL write_rr writes the owner name in wire format, the IANA type number, class IN, the TTL, the RDATA length and the RDATA of the RFCs in canonical form; different records are written differently; ty() is the IANA number.", "quantifier": "every record and TTL", "why_tests_cant": "all records", "anchors": ["src/rr.rs: write_rr, RR::ty, Record::ty"]}
{"id": "C61", "title": "The bytes a signature covers are the published ones", "statement": "The RDATA of a record read from a proof enters the bytes whose signature is checked (and is written again) unchanged exactly when it is in canonical form, so every zone's good signature over its published records is accepted.", "quantifier": "every record that can be read", "why_tests_cant": "all RDATA contents", "anchors": ["src/rr.rs: read_from_data, write_u16_len_prefixed_data", "src/validation.rs: verify_rrsig"]}
{"id": "C62", "title": "Nothing is accepted without IANA's root key", "statement": "If verify_rr_stream accepts, the input contains a root DNSKEY with the key tag and SHA-256 digest of one of the two root trust anchors IANA publishes, and an RRSIG that verifies with RSA/SHA-256 under it over exactly the input's root DNSKEY set in canonical form.", "quantifier": "every input and every behaviour of the cryptographic library", "why_tests_cant": "an adversary chooses the input", "anchors": ["src/validation.rs: root_hints, verify_rr_stream, verify_dnskeys"]}
{"id": "C64", "title": "End to end: bytes to resolved records", "statement": "Every record obtained by parse_rr_stream, verify_rr_stream and resolve_name occurs in the proof bytes, is authenticated by a chain of trust from the root, and is at the name a chain of authenticated aliases leads to from the requested one; conversely every authenticated record at a name without aliases is returned.", "quantifier": "every byte string and name", "why_tests_cant": "composition over all inputs", "anchors": ["src/rr.rs: parse_rr_stream", "src/validation.rs: verify_rr_stream, resolve_name"]}
{"id": "C65", "title": "One signature operation per RRSIG", "statement": "The result of verify_rr_stream depends on at most one answer of the signature library per RRSIG in the input, however many keys have the same key tag (no KeyTrap-style multiplication of keys and signatures).", "quantifier": "every input, every pair of signature libraries", "why_tests_cant": "adversarial inputs with colliding key tags", "anchors": ["src/validation.rs: verify_rrsig, verify_rr_stream"]}
{"id": "C66", "title": "Signatures name the zone whose keys verify them", "statement": "Every RRSIG relied on names as signer the zone whose DNSKEY verifies it (RFC 4035 5.3.1), for records and for key sets.", "quantifier": "every input", "why_tests_cant": "an adversary chooses the input", "anchors": ["src/validation.rs: verify_rr_stream"]}
{"id": "C67", "title": "Proofs built with a correctly functioning resolver verify", "statement": "When a ProofBuilder is driven against a resolver that answers from a correctly signed part of the DNS, then whatever the order of the responses: every response is accepted, awaiting_responses is true exactly while queries are outstanding, the number of queries is at most two per zone, and once none is outstanding finish_proof gives a proof that parse_rr_stream reads and verify_rr_stream accepts, with exactly the records of the answer verified.", "quantifier": "every correctly signed world, every resolver that answers from it, every order of responses", "why_tests_cant": "all zone trees, record sets and schedules of responses", "anchors": ["src/query.rs: ProofBuilder::new, process_response, awaiting_responses, finish_proof, build_proof_impl", "src/validation.rs: verify_rr_stream"]}
{"id": "C63", "title": "The DNS-over-HTTPS client returns only validated records", "statement": "lookup_doh asks its endpoint, with RFC 8484 GET requests, exactly the queries of a proof builder for the domain and type given, at most ten; whatever the endpoint returns, its promise is settled with a JSON text that is either an error object or denotes the validity window and exactly the records of a verified proof for the domain, each authenticated from the root; and with a correctly functioning resolver behind the endpoint it denotes exactly the records of the answer.", "quantifier": "every domain, type, endpoint, sequence of HTTP outcomes, and JavaScript engine whose JSON functions keep values", "why_tests_cant": "the endpoint is an adversary which chooses every response", "anchors": ["wasmpack/doh_lookup.js: lookup_doh", "wasmpack/src/lib.rs: init_proof_builder, get_next_query, process_query_response, get_unverified_proof, verify_byte_stream"]}
{"id": "C68", "title": "Verifying never panics, and debug builds do what release builds do", "statement": "verify_rr_stream returns Ok or Err or runs on, but never panics: in a release build for every list of records, and in a debug build (overflow checks and debug assertions on) it gives the same result as in a release build. Writing a record and computing a key tag do the same in both builds.", "quantifier": "every platform, every list of records, every byte string it was parsed from", "why_tests_cant": "overflows and assertions depend on attacker-chosen fields and lengths", "anchors": ["src/validation.rs: verify_rr_stream, verify_rrsig, verify_dnskeys", "src/rr.rs: WriteableRecord::serialize_u16_len_prefixed_data, DnsKey::compute_key_tag", "src/ser.rs: write_nsec_types_bitmap, nsec_types_bitmap_len"]}
{"id": "C69", "title": "Nothing verifies that no operator signed", "statement": "An attacker on the network, who can send any bytes as a proof but cannot forge signatures, cannot get a record verified that the operator of a zone did not sign: every record verify_rr_stream returns is in a record set an operator signed under that name or a wildcard above it, with exactly the members the operator signed, and the returned validity period and TTL lie within the signed ones.", "quantifier": "every byte string presented as proof, every platform whose signatures cannot be forged, every set of operators who sign only their own keys and delegations", "why_tests_cant": "quantifies over all proofs an attacker may construct and over the whole chain of trust, including that signed bytes can be read in one way only", "anchors": ["src/validation.rs: verify_rr_stream, verify_rrsig, verify_dnskeys", "src/ser.rs: parse_rr_stream"]}
{"id": "C70", "title": "Wildcard records verify only for names that do not exist", "statement": "If the operators of zones are honest, an attacker cannot get the records of a wildcard verified for a name that has records of its own.", "quantifier": "every byte string presented as proof, every platform whose signatures cannot be forged, all honest operators", "why_tests_cant": "quantifies over all proofs an attacker may construct from what operators signed", "anchors": ["src/validation.rs: verify_rr_stream"]}
{"id": "C71", "title": "Records nobody signed have no effect", "statement": "What verify_rr_stream returns depends only on the signatures of zones to which delegations lead from the root and on the records these signatures cover: any other records (unsigned ones, keys, records and signatures of zones without a DS record) can be added to or removed from a proof, in any place, without changing the records returned, their validity and TTL, the error, or whether it returns.", "quantifier": "all lists of records, all platforms (hash and signature functions), all places of insertion", "why_tests_cant": "quantifies over all proofs and all additional records", "anchors": ["src/validation.rs: verify_rr_stream"]}
{"id": "C72", "title": "Repeated records do not matter", "statement": "A proof which contains the same record more than once has the same outcome as the proof with the repetitions removed.", "quantifier": "all lists of records, all platforms (hash and signature functions)", "why_tests_cant": "quantifies over all proofs and repetitions", "anchors": ["src/validation.rs: verify_rr_stream, verify_rrsig"]}
{"id": "C73", "title": "No response from a resolver makes building a proof panic", "statement": "Whatever bytes a resolver sends, ProofBuilder::process_response returns Ok or Err, and build_proof (and the functions built on it) returns a proof or an error; neither panics.", "quantifier": "all builders, all response bytes, all byte streams of the peer, debug and release builds", "why_tests_cant": "quantifies over all messages and all histories of the builder", "anchors": ["src/query.rs: handle_response, ProofBuilder::process_response, build_proof_impl", "src/ser.rs: parse_wire_packet_rr, read_nsec_types_bitmap"]}
{"id": "C74", "title": "A client of the HTTP server is answered, with a proof that verifies", "statement": "A client that sends a request for a proof is always answered: with status 200 and the proof built from the responses of the resolver, or with status 400 or 404 if connecting or building fails. If the records asked for are correctly signed and the resolver functions, the body of the response parses and verifies to exactly those records.", "quantifier": "all request bytes and segmentations, all byte streams of the resolver, all orders in which it answers, all correctly signed worlds", "why_tests_cant": "quantifies over all inputs of both peers and all signed zones", "anchors": ["src/http.rs: main", "src/query.rs: build_proof_async, build_txt_proof_async, build_tlsa_proof_async, build_a_proof_async, build_aaaa_proof_async"]}
{"id": "C75", "title": "Clients of the HTTP server do not affect each other", "statement": "However many clients connect, in whatever order their tasks run, in whatever pieces data arrives from clients and resolver, and whatever happens to the tasks of other clients (errors, panics, connections left open), each client is served exactly as if it were alone with all its data arriving at once, and the server goes on accepting connections.", "quantifier": "all runs of the server: all numbers of connections, all schedules, all segmentations of the data, all behaviours of clients and resolver, failures to accept a connection", "why_tests_cant": "quantifies over all interleavings of any number of connections", "anchors": ["src/http.rs: run_server, main", "src/query.rs: build_proof_async, send_query_async, read_response_async"]}
{"id": "C76", "title": "Proofs can be combined", "statement": "Several proofs, each of which is accepted, can be put together into one proof that is accepted, as long as they are all valid at some common moment. Its result has exactly the records of the results of all of them, its validity starts with the latest start and ends with the earliest end, and its TTL is the least of theirs.", "quantifier": "all finite collections of accepted proofs, all platforms, all ways to merge the records", "why_tests_cant": "quantifies over all sets of proofs and their contents", "anchors": ["src/validation.rs: verify_rr_stream", "src/query.rs: ProofBuilder"]}
{"id": "C77", "title": "Building proofs in debug builds is like in release builds", "statement": "ProofBuilder::process_response and build_proof behave in debug builds, where sums that overflow and failing debug assertions panic, exactly as in release builds, for every response.", "quantifier": "all builders, all responses, all peers", "why_tests_cant": "overflows need records of particular extreme sizes; quantifies over all responses", "anchors": ["src/query.rs: handle_response, ProofBuilder::process_response, build_proof", "src/ser.rs: write_rr, parse_wire_packet_rr", "src/rr.rs: RRSig::write_u16_len_prefixed_data"]}
{"id": "C78", "title": "Parsing and building proofs take linear work and space", "statement": "Parsing a name touches a bounded number of octets however the compression pointers are arranged; parse_rr_stream and the processing of a response touch at most a constant number of octets per octet of input; a ProofBuilder's proof grows by at most 38 octets per octet of response, and the proof returned by build_proof has at most 38 * 10 * 65535 octets.", "quantifier": "all inputs, all responses, all histories of a builder, all peers", "why_tests_cant": "worst cases are adversarial messages (pointer loops, shared names, overlapping bitmaps); the bound is over all inputs", "anchors": ["src/ser.rs: do_read_wire_packet_labels, parse_wire_packet_rr, parse_rr_stream", "src/query.rs: handle_response, ProofBuilder::process_response, build_proof"]}
{"id": "C79", "title": "QueryBuf equality is equality of contents", "statement": "Two QueryBufs compare equal exactly when they dereference to the same bytes, however each of them was made (new_zeroed, extend_from_slice, writes through DerefMut).", "quantifier": "all pairs of histories of operations, all lengths, all stack limits", "why_tests_cant": "whether stale bytes are left in the unused part of the buffer depends on the whole history of the buffer", "anchors": ["src/query.rs: QueryBuf (derive PartialEq, Eq), new_zeroed, extend_from_slice, DerefMut"]}
{"id": "C80", "title": "Cryptographic work of verification is bounded and spent only on trusted keys", "statement": "verify_rr_stream checks each RRSIG at most once, computes at most one digest per DNSKEY and DS record and at most 5002 SHA-1 hashes per signature; signatures are only checked with keys that the chain of trust from the root leads to; and nothing more is computed after a signature has turned out bad.", "quantifier": "all record sequences, all behaviours of the cryptographic primitives", "why_tests_cant": "denial of service attacks on validators (CVE-2023-50387, CVE-2023-50868) are inputs chosen to maximise this work; a bound is about all inputs", "anchors": ["src/validation.rs: verify_rr_stream, verify_dnskeys, verify_rrsig, do_validate_zone, nsec3 hashing"]}
{"id": "C81", "title": "Digests computed piece by piece are the digests of the whole", "statement": "The digest compared with a DS record is the SHA-1 or SHA-256, by digest type, of the canonical owner name followed by the DNSKEY RDATA, and the hash used for NSEC3 is the iterated salted SHA-1 of RFC 5155, although both are fed to an incremental hash in many pieces; verification decides the same as with one-shot hashes.", "quantifier": "all incremental hash implementations that compute the hash of the concatenation of their input, all keys, names, salts and iteration counts", "why_tests_cant": "known vectors cover a few names and keys; a swapped, dropped or doubled piece matters only for inputs where the piece is not empty, in some round of some iteration", "anchors": ["src/crypto/hash.rs: Hasher, update, finish, HashResult", "src/ser.rs: Writer for Hasher, write_name", "src/validation.rs: verify_dnskeys, verify_rr_stream (NSEC3 hashing)"]}
{"id": "C82", "title": "The fuzz targets neither panic nor hang, and test the code that is shipped", "statement": "For every input the functions called by the fuzz targets (fuzz_response, fuzz_proof_builder, parse_rr_stream with verify_rr_stream) return without a panic, the assertions on vector capacities compiled in for fuzzing hold, and the fuzzing build differs from the normal one only in accepting signatures that start with a 1 where some cryptographic library would accept them.", "quantifier": "all byte strings, all growth strategies of vectors, all behaviours of the cryptographic primitives", "why_tests_cant": "it is what fuzzing samples; no number of runs settles it for all inputs", "anchors": ["fuzz/src/*.rs", "src/query.rs: fuzz_response, fuzz_proof_builder, STACK_BUF_LIMIT", "src/base32.rs: encode, encode_data, decode_data (cfg(fuzzing) assertions)", "src/validation.rs: verify_rrsig (cfg(fuzzing))"]}
{"id": "C83", "title": "What an honest zone denies can be shown to be denied", "statement": "For a zone whose NSEC or NSEC3 records form the complete chain the RFCs prescribe, every name that does not exist is covered by one of them, and a proof of records expanded from a wildcard that contains these records is accepted, whichever non-existent name it is for.", "quantifier": "all zones (chains of any length, parameters within the limits), all names not in the zone, all proofs", "why_tests_cant": "needs every name relative to every chain; the names that fail are at the ends of the chain, which examples rarely touch", "anchors": ["src/validation.rs: verify_rr_stream (name_contained, hash_contained)"]}
{"id": "C84", "title": "Wildcards in the chain of trust need denials too", "statement": "Whenever verify_rr_stream relies on a record set that was signed for a wildcard and is presented at another name - the records it returns, and also the DS and DNSKEY sets of the chain of trust - the proof contains an authenticated denial of the next closer name.", "quantifier": "every input", "why_tests_cant": "all inputs; needs zones that sign such sets, which test data does not contain", "anchors": ["src/validation.rs: verify_rr_stream (DS::TYPE arm), verify_dnskeys"]}
{"id": "C85", "title": "A finished proof answers the question", "statement": "If a ProofBuilder created for a name and type finishes and the proof verifies, the records verified are the answer to that question (possibly after aliases), whatever responses it was given.", "quantifier": "all questions, all resolvers and anyone between, all sequences of responses", "why_tests_cant": "all response sequences", "anchors": ["src/query.rs: ProofBuilder::new, process_response, handle_response"]}
{"id": "C86", "title": "SHA-384 trust anchors", "statement": "A zone whose parent vouches for its keys with SHA-384 DS records validates like one with SHA-256 DS records; if it cannot be checked, the result is UnsupportedAlgorithm, not Invalid.", "quantifier": "every DS set, key set, signature set, and behaviour of the hash functions", "why_tests_cant": "all combinations of DS records and keys", "anchors": ["src/validation.rs: verify_dnskeys"]}
{"id": "C87", "title": "Revoked keys are not used", "statement": "A DNSKEY with the REVOKE flag (RFC 5011) is not relied on: no record set is accepted because of a signature by such a key.", "quantifier": "every input and every behaviour of the cryptographic functions", "why_tests_cant": "all key sets; test data has no revoked keys", "anchors": ["src/validation.rs: verify_rrsig, verify_dnskeys", "src/rr.rs: DnsKey::key_tag"]}
{"id": "C88", "title": "Clients of the HTTP server receive the response or an initial part of it", "statement": "Whatever the client's socket does with the writes (taking few bytes at a time, failing at any point), the bytes that arrive are the well-framed response, or an initial part of it if a write fails.", "quantifier": "every request, every resolver, every behaviour of the socket at every write", "why_tests_cant": "all interleavings of short and failing writes", "anchors": ["src/http.rs: run_server"]}
{"id": "C89", "title": "In the window returned, the signatures are valid", "statement": "At every moment from valid_from to expires, every RRSIG the result rests on is valid according to RFC 4034 3.1.5 (times compared as serial numbers), and at every other moment one of them is not.", "quantifier": "every accepted input, every moment", "why_tests_cant": "all times, including the overflow of 32 bit times", "anchors": ["src/validation.rs: verify_rr_stream, resolve_time, VerifiedRRStream"]}
{"id": "C90", "title": "The cache lifetime of a proof is safe", "statement": "The TTL that is returned with a proof, and that the HTTP server sends as max-age, exceeds neither the max_cache_ttl found by verifying the proof nor the time left until the proof expires.", "quantifier": "every finished proof, every resolver, every moment at which the proof is obtained", "why_tests_cant": "all responses with all TTLs, original TTLs and expiry times, across building and verification", "anchors": ["src/query.rs: handle_response, ProofBuilder::finish_proof", "src/validation.rs: VerifiedRRStream::max_cache_ttl, VerifiedRRStream::expires", "src/http.rs: Cache-Control"]}
{"id": "C91", "title": "More records never verify less", "statement": "If all records of an accepted proof are also in another accepted proof, in whatever order and with whatever else, then every record verified by the first is verified by the second, and the second is not valid for longer, nor may it be cached for longer, than the first.", "quantifier": "every pair of accepted inputs of verify_rr_stream of which one contains the records of the other", "why_tests_cant": "all pairs of proofs, all orders, all additional records, including those an attacker adds", "anchors": ["src/validation.rs: verify_rr_stream, verify_dnskeys, VerifiedRRStream"]}
{"id": "C92", "title": "Names on the wire are read with exactly their labels", "statement": "A name in a proof or response is read as the name with exactly the labels it has on the wire, in lower case: names with different labels are read as different names, and octets that are no name by RFC 1035 (reserved label types) are rejected.", "quantifier": "every message, position and name, compressed or not", "why_tests_cant": "all labels of all lengths with all octets, all pointer graphs", "anchors": ["src/ser.rs: do_read_wire_packet_labels, read_wire_packet_name", "src/rr.rs: Name::try_from"]}
{"id": "C93", "title": "UnsupportedAlgorithm means the zone wished so", "statement": "verify_rr_stream reports UnsupportedAlgorithm exactly if the proof shows an authenticated delegation to a zone that is signed only with algorithms or digests the library does not support (RFC 4035 5.2), so that, as documented, the data may be used like that of an unsigned zone; nobody without the zone's keys can cause it for a zone that also uses supported algorithms.", "quantifier": "every proof and every way of tampering with it", "why_tests_cant": "all record sets, key sets, DS sets and subsets of signatures in a proof, including forged ones", "anchors": ["src/validation.rs: ValidationError::UnsupportedAlgorithm, verify_dnskeys, verify_rr_stream"]}
{"id": "C94", "title": "Resolved answers are what operators have published", "statement": "Whoever made the proof bytes and whatever the resolver sent: if parse_rr_stream, verify_rr_stream and resolve_name(n) succeed, the records returned are at a name to which aliases (CNAME, DNAME) lead from n that the operators of the zones concerned have signed, and for each type they are exactly a record set that an operator has signed for that name or a wildcard above it, with no record added or left out, within the signed validity times and TTL.", "quantifier": "every proof, every name, all worlds of operators and signed statements, any number of aliases", "why_tests_cant": "the attacker chooses the bytes; all chains of aliases and all sets of statements signed by operators", "anchors": ["src/validation.rs: verify_rr_stream, VerifiedRRStream::resolve_name", "src/ser.rs: parse_rr_stream"]}
{"id": "C95", "title": "What is asked for is what is resolved", "statement": "With a resolver that answers correctly from a correctly signed part of the DNS, in whatever order its answers arrive: the proof a ProofBuilder (or the driver) returns for a name is parsed and verified, and resolve_name for that name then returns exactly the records published at the name to which the CNAME and DNAME records in the answer lead (RFC 1034, RFC 6672).", "quantifier": "all correctly signed worlds, all questions, all orders of responses, any number of aliases", "why_tests_cant": "all zone contents, alias chains, response encodings and schedules", "anchors": ["src/query.rs: ProofBuilder, build_proof", "src/ser.rs: parse_rr_stream", "src/validation.rs: verify_rr_stream, VerifiedRRStream::resolve_name"]}
{"id": "C96", "title": "The outcome of verification does not depend on the sorting algorithm", "statement": "sort_unstable may put elements that compare equal in any order, and has done so differently between Rust releases. For every stream two builds of the library that differ only in this come to the same result of verify_rr_stream (the same records in the same order, window and TTL, or the same error), and compute the same signed data and the same queries.", "quantifier": "every stream of records and every two ways of sorting that meet the documentation of sort_unstable and sort_unstable_by", "why_tests_cant": "a test runs with one sorting algorithm; all ways of breaking ties in all inputs", "anchors": ["src/validation.rs: verify_rrsig, verify_rr_stream, nsec_ord_extra", "src/query.rs: handle_response"]}
{"id": "C97", "title": "Responses may arrive in any order", "statement": "With a resolver (any) whose response to a query depends only on the query: whether process_response and finish_proof end in a proof does not depend on the order in which outstanding queries are answered. If a proof results in one order, then in every order the builder awaits a response as long as there are unanswered queries, accepts each of them, asks for the same things, and finish_proof returns a proof of the same records with the same TTL; build_proof does the same for servers that answer out of order.", "quantifier": "every resolver (a function from queries to bytes), every question, every two schedules", "why_tests_cant": "all schedules of up to ten responses and all contents of responses", "anchors": ["src/query.rs: ProofBuilder::process_response, ProofBuilder::awaiting_responses, ProofBuilder::finish_proof, build_proof"]}
{"id": "C98", "title": "Proofs valid at the same time do not contradict each other", "statement": "Whoever made them: if two proofs are accepted by verify_rr_stream, the current time is between valid_from and expires of both, and both return records of the same name and type, they return the same records of that name and type (and so does resolve_name), as long as the operators of the zones concerned publish one record set at a time for each owner name and type.", "quantifier": "every pair of proofs, every name, type and moment, all worlds of operators and signed statements", "why_tests_cant": "both proofs may be made by an attacker from anything operators ever signed", "anchors": ["src/validation.rs: verify_rr_stream, VerifiedRRStream"]}
{"id": "C99", "title": "TTLs, letter case and text cutting in a proof do not matter", "statement": "Two proofs that consist of the same records up to the TTL fields (which caches count down), the case of letters in owner names and in names in the RDATA (which resolvers randomise), and where the text of TXT records is cut into strings are interchangeable: parse_rr_stream gives the same records, rejection or panic for both, so verification gives the same records, times and max_cache_ttl or the same error.", "quantifier": "every pair of byte strings related this way, accepted or not; any number of records; every platform", "why_tests_cant": "exponentially many variants of every proof", "anchors": ["src/ser.rs: parse_rr_stream, parse_rr, read_wire_packet_name", "src/rr.rs: read_from_data", "wasmpack/src/lib.rs: verify_byte_stream"]}
{"id": "C100", "title": "Only current records are returned as verified", "statement": "Records returned by a lookup (lookup_doh, or verify_byte_stream on a proof from a builder) are current: the signatures they rest on are valid at that time. In any case the window in the result (valid_from, expires) lets the caller tell: throughout it all signatures are valid; and if a resolver returned only signatures valid at time T, the window contains T.", "quantifier": "all servers and responses; all correctly signed worlds and sessions; all times", "why_tests_cant": "tests run at one time; expired signatures and all combinations of windows have to be considered", "anchors": ["wasmpack/doh_lookup.js: lookup_doh", "wasmpack/src/lib.rs: verify_byte_stream", "src/validation.rs: VerifiedRRStream (valid_from, expires)"]}
{"id": "C101", "title": "NSEC records at delegations deny nothing in the child zone", "statement": "When wildcard records are accepted for a name, the denial of that name does not rest on an NSEC record from a delegation above it (owner at or above the zone's name, type NS without SOA, from the parent zone): the parent zone's record says nothing about the names in the child zone (RFC 6840 4.1).", "quantifier": "all record streams, zones, delegations and names below them", "why_tests_cant": "every NSEC record of every zone above has to be considered as a possible denial of every name", "anchors": ["src/validation.rs: verify_rr_stream (NSEC handling), nsec_ord"]}
{"id": "C102", "title": "A proof can be taken apart: each verified RRset has a proof of its own in it", "statement": "If a stream of records is accepted, then for every record it verifies there is a part of the stream (some of its records, in the same order) that is accepted too and verifies exactly the RRset of this record and nothing else, for at least as long (valid_from no later, expires no earlier, max_cache_ttl no smaller). So a proof built for several names or types can be cut down to what a recipient needs, without asking a resolver again.", "quantifier": "all accepted streams, all platforms, all verified records", "why_tests_cant": "verification of one record could depend on any other record in the stream; all streams and all ways to leave out signatures have to be considered", "anchors": ["src/validation.rs: verify_rr_stream", "src/validation.rs: verify_rrsig"]}
{"id": "C103", "title": "Key rollovers do not interrupt verification", "statement": "While a zone replaces its keys as RFC 6781 describes (Pre-Publish and Double-Signature rollovers of zone signing keys, Double-KSK and Double-DS rollovers of key signing keys, algorithm rollovers), proofs of its records are accepted at every stage, also if the DS set, key set and other records come from caches that are one stage behind.", "quantifier": "all zones and keys, all stages and mixtures of neighbouring stages, all orders of the signatures", "why_tests_cant": "tests contain a few recorded proofs of zones that are not changing keys; all stages, mixtures and orders have to be considered", "anchors": ["src/validation.rs: verify_dnskeys", "src/validation.rs: verify_rrsig", "src/validation.rs: verify_rr_stream"]}
{"id": "C104", "title": "Proofs are RFC 9102 authentication chains", "statement": "With a correctly functioning resolver the proof a ProofBuilder returns is an authentication chain as RFC 9102 section 3 defines it: uncompressed records, first the answer (with aliases, in the order the resolver gives them), then the DNSKEY and DS RRsets of all zones, each RRset with its signatures, at most 65535 octets. And every such chain for a correctly signed part of the DNS is accepted, whoever made it.", "quantifier": "all correctly signed worlds, all resolvers that answer from them, all orders of responses; all chains", "why_tests_cant": "tests contain the vector of the RFC and some recorded chains; the format has to hold for everything built, and all orders have to be accepted", "anchors": ["src/query.rs: ProofBuilder::process_response, ProofBuilder::finish_proof", "src/ser.rs: write_rr, parse_rr_stream", "src/validation.rs: verify_rr_stream"]}
{"id": "C105", "title": "Keys with the same key tag do not get in each other's way", "statement": "A signature is accepted exactly if it is good under some of the zone's keys that match its key tag and algorithm, whichever comes first: key tags are not unique, and RFC 4035 5.3.1 has validators try each matching key.", "quantifier": "all signatures, key sets, record sets and streams, all signature schemes", "why_tests_cant": "one key pair in 65536 has the same tag, so recorded proofs do not contain any", "anchors": ["src/validation.rs: verify_rrsig, verify_dnskeys, verify_rr_stream", "src/rr.rs: DnsKey::key_tag"]}
{"id": "C106", "title": "The root keys trusted are those IANA publishes at the time", "statement": "verify_rr_stream trusts exactly the root keys that IANA publishes as trust anchors (root-anchors.xml, which the documentation of root_hints refers to) for the time the proof is made at: proofs signed with a current key are accepted, also while keys are replaced and revoked as RFC 5011 prescribes; proofs that rest on a key whose validity has ended are not.", "quantifier": "all proofs, all times, all orders of the signatures over the key set", "why_tests_cant": "tests are proofs made at one time with the key of that time", "anchors": ["src/validation.rs: root_hints, verify_dnskeys, verify_rr_stream"]}
{"id": "C107", "title": "Records of a wildcard can be proven under the wildcard's own name", "statement": "A proof of records at a name whose first label is * (RFC 4592 2.2.1: such a question is answered like any other), correctly signed by a zone with established keys, is accepted by verify_rr_stream if everything else is in order: nothing was expanded, so no proof that the name does not exist is needed (RFC 4035 5.3.4).", "quantifier": "all proofs, zones, wildcards, record types", "why_tests_cant": "tests prove names that a wildcard was expanded to, and never the wildcard", "anchors": ["src/validation.rs: verify_rr_stream, resolve_time, verify_rrsig", "src/rr.rs: Name::labels, Name::trailing_n_labels"]}
{"id": "C108", "title": "Only the records of a response matter, not how the resolver writes it", "statement": "What process_response does depends only on the answer records and the NSEC and NSEC3 records with their signatures in the authority section, and their TTLs: how names are compressed and spelled, the question, other authority records, the additional section and whatever follows have no effect. So every accepted response can be replaced with a plain, uncompressed one.", "quantifier": "all builder states, all accepted responses, all octets appended, both builds", "why_tests_cant": "tests use the responses of one resolver, with its way of compressing names", "anchors": ["src/query.rs: ProofBuilder::process_response, handle_response", "src/ser.rs: parse_wire_packet_rr, read_wire_packet_name"]}
{"id": "C109", "title": "Records of types the crate does not know do not get in the way", "statement": "Records of other types than the twelve the crate has, and signatures over them, do not keep the other records from being used (RFC 3597 has software treat them as opaque data): a proof in which there are some is verified as without them, and a response with some (such as the SOA record in the authority section of a response to an alias of a name without such records, RFC 2308) is processed as without them.", "quantifier": "all proofs, responses and builder states, all records of other types at all places, all signatures over other types, both builds", "why_tests_cant": "there are 65524 other types and unboundedly many places; tests only have records of the types that are supported", "anchors": ["src/rr.rs: RR", "src/ser.rs: parse_wire_packet_rr, parse_rr_stream", "src/query.rs: handle_response", "src/validation.rs: verify_rr_stream"]}
{"id": "C110", "title": "Building a proof over TCP does not deadlock", "statement": "If the connection holds at least 2850 bytes on their way to the resolver, build_proof (and its async copy) returns with every resolver that answers each query it reads, in whatever order and with whatever bytes, even one that reads on only when it has nothing to write and nothing to answer and with whatever room in the other direction: however writing and reading interleave and in whatever pieces, as long as it has not returned someone can go on, and nothing goes on forever. The result, and what is written to the resolver, depend only on the responses in the order in which the resolver makes them: they are those of a driver on a connection without limits.", "quantifier": "all names and types, all interleavings, all sizes of pieces and buffers, all orders and contents of responses, both builds", "why_tests_cant": "whether the two sides wait for each other depends on the schedule, on the sizes of buffers and on the responses; tests do not talk over connections with small buffers", "anchors": ["src/query.rs: build_proof_impl, send_query, read_response, send_query_async, read_response_async, ProofBuilder"]}
{"id": "C111", "title": "Building a proof ends, whatever the resolver does", "statement": "build_proof and build_proof_async return within a bounded time even if the resolver stops answering or never answers; they wait only while a response is due.", "quantifier": "all names, types, resolvers, interleavings, sizes of buffers", "why_tests_cant": "it is about every behaviour of the resolver at every point of the exchange, and about waiting without end", "anchors": ["src/query.rs: build_proof_impl, read_response, read_response_async"]}
{"id": "C112", "title": "The memory the HTTP server uses is bounded", "statement": "Whatever clients and the resolver send, the octets the server keeps for each client (request, name, proof, names asked for, response being received, answer) stay below a fixed bound, and so do those for all clients together.", "quantifier": "all histories of the server: any number of clients, what they and the resolver send, in what pieces, and the order in which tasks run", "why_tests_cant": "it is about every history, however long, and every resolver", "anchors": ["src/http.rs: run_server", "src/query.rs: ProofBuilder, build_proof_async, read_response_async"]}
{"id": "C113", "title": "What is missing from an answer does not exist", "statement": "Whoever made the proof: if verify_rr_stream accepts it and resolve_name(n) returns no record of some type (or leaves out one of several), then no such record is published at n. So a caller may conclude from an answer without TLSA records that there are none.", "quantifier": "every proof, every name and type, all worlds of operators and signed statements", "why_tests_cant": "it is about what every possible attacker can leave out of every proof", "anchors": ["src/validation.rs: verify_rr_stream, VerifiedRRStream::resolve_name"]}
{"id": "C114", "title": "resolve_name follows few aliases", "statement": "When resolve_name returns, it has followed at most as many aliases as there are verified records (or at least a number polynomial in the records), so that looking up a name in an accepted proof is cheap.", "quantifier": "every list of verified records, every name", "why_tests_cant": "it is a bound over all record lists; the worst case is exponential and no test that reaches it ends", "anchors": ["src/validation.rs: VerifiedRRStream::resolve_name"]}
{"id": "C115", "title": "What is signed with stolen keys expires", "statement": "If keys of zones have been stolen (other than the root's trust anchors), so that the thief can sign anything with them, and the operators replace them, then once the DS sets and key sets that vouch for the stolen keys have expired at a time T, no proof verifies for any time after T that contains a record the operators have not signed: every proof the thief can make is rejected or has expires at or before T, whatever times the thief writes into their own signatures. (As in C69, for operators of all zones whose name is a suffix of the record's.)", "quantifier": "every byte string presented as proof, every set of stolen keys, all operators and what they have signed, all times", "why_tests_cant": "it ranges over all forgeries with the stolen keys, mixed in any way with all replayed old statements", "anchors": ["src/validation.rs: verify_rr_stream", "src/validation.rs: VerifiedRRStream::expires"]}
{"id": "C116", "title": "Answers do not depend on the order of the records in a proof", "statement": "If two proofs contain the same records in different orders and both are accepted, resolve_name returns the same records for every name (or, for both, does not return).", "quantifier": "every pair of orders of every list of records, every name", "why_tests_cant": "it is about all orders of all record lists; resolve_name takes the first matching alias, so which alias that is matters only in some of them", "anchors": ["src/validation.rs: VerifiedRRStream::resolve_name", "src/validation.rs: verify_rr_stream"]}
{"id": "C117", "title": "What is verified is what RFC 4035 calls secure", "statement": "At every moment from valid_from to expires, the records verify_rr_stream returns are exactly the records of the proof that are secure according to RFC 4035 section 5: signed, with a signature valid at that moment, by a zone at or above their name, whose keys are vouched for by the root's trust anchors through signed DS and DNSKEY sets, and, if made from a wildcard, with a secure NSEC or NSEC3 record of that zone which shows that the next closer name does not exist.", "quantifier": "every accepted input, every moment in the window, every record", "why_tests_cant": "it compares the code with the whole validation algorithm of the RFC on all inputs, signatures and times; tests have a few real chains, in which the two cannot differ", "anchors": ["src/validation.rs: verify_rr_stream", "src/validation.rs: verify_rrsig", "src/validation.rs: verify_dnskeys"]}
{"id": "C118", "title": "A zone has no say about names that it has delegated", "statement": "If the operators of zones are honest and sign nothing (but DS, NSEC and NSEC3 records) at or below the names they delegate, every record returned for a name was signed by an operator who has not delegated that name or one above it.", "quantifier": "every byte string presented as proof, every platform whose signatures cannot be forged, all honest operators", "why_tests_cant": "it is about everything an attacker can put together from all that honest operators have signed", "anchors": ["src/validation.rs: verify_rr_stream", "src/validation.rs: verify_rrsig"]}
{"id": "C119", "title": "What verification holds in memory is linear in the proof", "statement": "At any time while verify_rr_stream runs, whatever it returns or whether it returns at all, it holds at most as many entries as its input has records: no record twice, no zone twice, and no more denials to be looked for than there are RRSIGs.", "quantifier": "every input, platform and build, every moment of the run", "why_tests_cant": "it is about the largest size over all inputs and all moments, and the inputs with which it is exceeded are specially made", "anchors": ["src/validation.rs: verify_rr_stream"]}
{"id": "C120", "title": "A lookup asks only for the name and for the zones involved", "statement": "Whatever the resolver, or someone on the way to it, answers: the queries a ProofBuilder issues are for the name and type it was created for, and for the keys and DS sets of zones that this name, or a name it is an alias of, is in. A lookup cannot be made to ask for names of someone else's choice.", "quantifier": "all questions, all resolvers, all sequences of responses", "why_tests_cant": "it is about every answer a resolver may make up", "anchors": ["src/query.rs: ProofBuilder::process_response, handle_response", "src/query.rs: build_proof"]}
{"id": "C121", "title": "Clients cannot use up the server's file descriptors", "statement": "However many clients connect to the HTTP server, and whatever they send or do not send, it does not run out of file descriptors and goes on accepting connections; the sockets opened for a client (its own and the one to the resolver) are closed when it has been answered, its connection fails or its task panics.", "quantifier": "all limits on file descriptors and all runs of the server within them: any number of clients, what they and the resolver send, and the order in which tasks run", "why_tests_cant": "it is about all histories of connections, and descriptors run out only with many clients over a long time", "anchors": ["src/http.rs: run_server", "src/query.rs: build_proof_async"]}
{"id": "C122", "title": "Clients that read slowly hold up nobody else", "statement": "As long as the HTTP server can accept connections: whatever other clients do, and however slowly they read what is written to them, or if they never do, each client receives octet by octet an initial part of the response it would get if it were alone, and all of it, after which its connection is closed, once its own socket has taken it.", "quantifier": "all runs of the server: all numbers of connections, all schedules of reading, looking up and writing, all sizes of the pieces read and written, all behaviours of the other clients and of the resolver", "why_tests_cant": "the number of interleavings of many connections with writes of all sizes is unbounded", "anchors": ["src/http.rs: run_server"]}
