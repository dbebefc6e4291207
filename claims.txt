C01 proved
  C01_try_from_iff C01_case_insensitive C01_idempotent
C02 proved
  C02_names_have_labels C02_wire C02_labels C02_trailing_none C02_trailing_some C02_empty_labels_differ
C03 partial Proved for exactly the records that are encodable (C03_round_trips_iff), in particular for every record read from a proof stream that has no empty label and is not an empty TXT. The statement for all records is false: refuted for empty TXT data, names with empty labels and oversize NSEC3 salts.
  C03_round_trips_iff C03_write_then_parse_partial C03_parsed_records_round_trip_partial C03_fails_for_empty_txt C03_fails_for_empty_labels C03_fails_for_long_salt
C04 partial Compositionality and full consumption are proved for all inputs; inversion of write_rr sequences is proved for encodable records and refuted for an empty TXT record.
  C04_stream_of_writes_partial C04_stream_iff_pieces C04_concatenation C04_fails_after_empty_txt
C05 partial Holds exactly for the records with at most 65535 bytes of RDATA that are not an empty TXT (C05_length_prefix_iff); refuted for the others.
  C05_length_prefix_iff C05_length_prefix_partial C05_fails_for_empty_txt C05_fails_for_oversize
C06 partial The exact condition under which parsing panics is proved. The property itself is false (a 47-byte NSEC record panics; debug assertions panic on trailing bytes).
  C06_record_panics_iff C06_release_no_panic_partial C06_release_no_panic_small_bytes_partial C06_fails_nsec_window C06_fails_debug_trailing
C07 proved
  C07_read_name_iff C07_never_panics C07_stream_names_are_plain C07_stream_pointer_rejected C07_plain_names_decode
C08 proved
  C08_membership C08_new_is_empty
C09 proved
  C09_round_trip C09_length C09_canonical C09_read_meaning
C10 proved
  C10_read_iff C10_read_fails C10_write
C11 proved
  C11_never_panics C11_canonical_order
C12 partial Proved for A, AAAA, TXT, TLSA, DNSKEY and DS, and for NS records whose name servers have labels of the same lengths; refuted for NS in general, CNAME, DNAME, NSEC and NSEC3.
  C12_sorted_partial C12_same_shape_partial C12_canonical_order_partial C12_fails_for_ns C12_fails_for_cname_dname C12_fails_for_nsec C12_fails_for_nsec3
C13 partial Both orders are proved total; they agree except on pairs of TXT records, where agreement is refuted.
  C13_partial_cmp_total_order C13_cmp_total_order C13_orders_agree_partial C13_orders_disagree_on_txt
C14 proved
  C14_key_tag C14_no_overflow
C15 proved
  C15_encode_is_rfc4648 C15_decode_iff C15_round_trip
C16 proved
  C16_split_iff C16_fails_iff
C17 proved
  C17_canonical C17_texts C17_total_order
C18 partial Proved for times from the cutoff on; below it the result is one second early (refuted), and order is preserved only weakly.
  C18_resolve_partial C18_off_by_one C18_monotone_partial C18_not_strict
C19 proved
  C19_order_of_records C19_sort_unique
C20 partial Proved as an iff for RRsets whose canonical form and order the crate computes: A, TXT (not empty), AAAA, DS, DNSKEY, TLSA sets, NS sets whose texts compare like their wire forms (in particular with labels of the same lengths) and single records of any type, with names without empty labels. False for others: some correctly signed NS sets and empty TXT records are rejected (two refutations). Soundness of unsupported algorithms, ignored keys and absence of panics need no such assumption.
  C20_accept_iff_partial C20_same_shape_partial C20_unsupported_iff_partial C20_unsupported_never_ok C20_other_keys_ignored C20_never_panics C20_fails_for_ns C20_fails_for_empty_txt
  C20_sound_partial
C54 proved
  C54_signed_bytes_determine_rrset
C21 proved For every input: under verify_rrsig's own notion of a good signature without hypotheses, and under the RFC 4034 notion when all signed RRsets are proper (see C20).
  C21_chain_of_trust
  C21_chain_of_trust_rfc
  C21_all_key_sets
C22 partial False of the code: containment is tested on text, so oogle.com. can sign for google.com. (refuted by C22_fails_for_textual_suffix). Proved: the owner is at or below the signer's parent and the label at the signer's position ends in the signer's first label; label-wise containment when the text match is at a dot.
  C22_fails_for_textual_suffix
  C22_containment_partial
  C22_labelwise_partial
C23 proved
  C23_contents
C24 proved
  C24_window
  C24_C25_rfc
C25 proved
  C25_ttl
  C24_C25_rfc
C26 proved
  C26_bad_signature
  C26_bad_signature_rfc
  C26_outside_or_over_rrsig
  C26_bad_key_set
  C26_unsupported_unused
C27 proved
  C27_exact
  C27_exact_rfc
C28 proved
  C28_wildcard_needs_denial
  C28_wildcard_needs_denial_rfc
C29 partial False of the code: an NSEC at the very name that has the type, and an NSEC of another zone, count as denials; the zone may even be unrelated as text if it needs the denial of the same name (three refutations). Proved for every accepted stream: what a wildcard record rests on is a proper denial, or has the name (or its hash) itself as owner, and is from below a zone that expanded a wildcard with the same next closer name.
  C29_fails_for_existing_name
  C29_fails_for_other_zone
  C29_fails_for_shared_name
  C29_denial_partial
  C29_used_partial
C30 proved
  C30_limits
  C30_two_parameter_sets
  C30_others_ignored
  C28_wildcard_needs_denial
C32 proved
  C32_accept_iff
  C32_empty
  C32_unknown_digest
  C32_sha1_ignored
C31 partial False of the code: verify_rr_stream loops forever when the root zone validates but signs no DS set, and when a zone signs a DS set for itself (C31_fails_*; C31_diverges says this of every such input that is otherwise in order). Proved: it returns on all other inputs, within (n+1)^255 zones; the excluded inputs are never accepted. Model: fuel bounds the number of zones processed, none means it did not suffice.
  C31_diverges
  C31_root_exact
  C31_fails_root_only
  C31_fails_real_root
  C31_fails_real_root_bytes
  C31_fails_self_delegation
  C31_terminates_partial
  C31_ok_needs
  C31_answer_unique
C36 partial False of the code when a zone's key set has several RRSIGs of which only one is made by an anchored key (C36_fails_for_redundant_signatures), when two keys of a zone have the same tag (C36_fails_for_equal_key_tags), with three sets of NSEC3 parameters (C36_fails_for_three_parameter_sets), and when two zones need the denial of the same name (C36_fails_for_shared_name). The window is that of the first of several good signatures over a key set (C36_fails_window). Proved: any two orders that are both accepted verify the same records, without conditions; the same window and TTL if the signatures over each key set have the same times; and the same acceptance if, also, those signatures are all good or all bad, no two keys are eligible for the same RRSIG and the denials are uniform.
  C36_fails_for_redundant_signatures
  C36_fails_for_equal_key_tags
  C36_fails_for_shared_name
  C36_fails_for_three_parameter_sets
  C36_fails_window
  C36_same_records
  C36_same_result_partial
  C36_acceptance_partial
C55 partial False of the code: for every n up to 127 there is an input of at most (n+3)^2 records that takes exactly 2^n zone visits (C55_fails_exponential). Proved: the bound (n+1)^L with L the longest RRSIG owner name; and, if no two zones delegate to the same one, as in the DNS, each zone is visited once.
  C55_fails_exponential
  C55_bound_partial
  C55_once_partial
C56 proved Acceptance conditions, sufficient in general (also with signatures as in the RFC) and necessary if denials are uniform.
  C56_complete
  C56_complete_rfc
  C56_accept_iff
C33 proved Chain and result as specified, first matching record first; also answer unique, never a panic. DNAMEs are considered by textual suffix (see C35), which the specification of the chain states as such.
  C33_returns_iff
  C33_answer_unique
  C33_returned_records
  C33_no_alias
  C33_cname
C34 partial False of the code: an accepted stream with a CNAME loop makes resolve_name loop forever (C34_fails_cname_loop). Proved: it returns iff no name is visited twice, with CNAMEs only within as many redirections as records.
  C34_fails_cname_loop
  C34_returns_iff_no_cycle_partial
  C34_bound_partial
C35 partial False of the code: suffixes are compared as text, so a DNAME at c. is applied to xc. (and to c. itself), and DNAMEs from or to the root give wrong names. Proved: exactly which names a DNAME applies to and the effect, which is right for names below the owner.
  C35_fails_text_suffix
  C35_fails_owner_and_root
  C35_applies_iff
  C35_effect
  C35_below_partial
C37 proved Refinement to a byte vector for every operation sequence, initial size and stack limit.
  C37_buffer_is_a_vector
  C37_length
C38 partial False of the code: pushing beyond 65535 bytes always panics although documented not to (C38_fails_beyond_u16). Proved: it panics iff the total exceeds 65535 bytes.
  C38_fails_beyond_u16
  C38_panics_iff_partial
C39 partial False for names with an empty label, which can be constructed: the query asks for another name (C39_fails_for_empty_labels). Proved for exactly the other names (C39_question_iff); length and absence of panics for all names.
  C39_query_partial
  C39_question_iff
  C39_no_panic
  C39_fails_for_empty_labels
C40 partial False of the code: RCODE 8 is accepted, its bit is missing in the mask (C40_fails_rcode_8), and so are extended RCODEs, whose upper octet is in the additional section, which is not read (C40_fails_extended_rcode). Proved: everything else.
  C40_accepted_header_partial
  C40_fails_rcode_8
  C40_fails_extended_rcode
C41 proved Acceptance, appended bytes, TTL and signers, for every builder state and response.
  C41_accepts_iff
  C41_contributes
  C41_unique
C42 proved For every history and, for the TCP driver, every behaviour of the peer.
  C42_at_most_ten_queries
  C42_awaits_at_most_ten
  C42_driver_returns
C43 proved For every history.
  C43_signers_asked_once
C44 partial Success condition proved for every history. The contents are as stated only if no response was rejected (C45_fails_after_rejected); for every history they are, exactly, what accepted responses contribute and rejected ones leave behind (C44_every_history).
  C44_finish_iff
  C44_proof_contents_partial
  C44_proof_is_records
  C44_every_history
C45 partial False of the code after a rejected response (C45_fails_after_rejected). Proved for histories without; in general it is the lowest TTL of the records of accepted responses (C44_every_history).
  C45_min_ttl_partial
  C45_fails_after_rejected
C46 partial False of the code: a response that fails in the middle leaves its first records in the proof (C46_fails_truncated). Proved: exactly when a response is rejected and what it leaves behind; nothing else changes, and nothing at all if the header is rejected.
  C46_rejected_partial
  C46_fails_truncated
  C46_bad_header_unchanged
  C46_rejected_iff
  C46_one_of_three
C47 proved Framing for every message of at most 65535 bytes, and the driver as a refinement of builder histories in both directions.
  C47_send
  C47_read_iff
  C47_driver_sound
  C47_driver_complete
C48 partial False after a rejected response and for records that are not encodable, such as an empty TXT record (C48_fails_for_empty_txt) or an RRSIG that is too long without compression (C48_fails_for_long_rrsig). Proved for all other histories.
  C48_proof_parses_partial
  C48_encodable
  C48_fails_for_empty_txt
  C48_fails_for_long_rrsig
C52 partial False of the code for every RRSIG (a colon is missing, C52_fails_for_rrsig; its type is also given as "ds") and for names with a backslash, which is not escaped (C52_fails_for_backslash, C52_fails_for_backslash_other_name). Proved for all other records.
  C52_json_partial
  C52_text
  C52_fails_for_rrsig
  C52_fails_for_backslash
  C52_fails_for_backslash_other_name
C49 partial False of the code when bytes that are not UTF-8 follow the line: the whole buffer has to be UTF-8, and what is in it depends on the segmentation (C49_fails_for_other_bytes). Proved: the outcome for every segmentation, exactly; independence if what follows the line is ASCII; no panics.
  C49_outcome
  C49_exactly
  C49_completed
  C49_segmentation_partial
  C49_fails_for_other_bytes
  C49_no_panic
C50 proved For every sequence of reads and every resolver. Writes that fail are the subject of C88.
  C50_response
  C50_silent_iff
C51 partial False of the code when bytes that are not UTF-8 arrive together with the request line (C51_fails_for_other_bytes). Proved: exactly when what is asked, for everything a client can send and every segmentation (C51_asked_iff), and that nothing else is ever asked.
  C51_asked_iff
  C51_dispatch_partial
  C51_fails_for_other_bytes
  C51_no_other_query
C53 proved For every history of calls.
  C53_queue
  C53_exhausted
  C53_malformed
  C53_proof
C57 partial False of the code for responses of exactly 65535 bytes, which are dropped (C57_fails_for_largest). Proved for shorter ones.
  C57_same_responses_partial
  C57_fails_for_largest
C58 partial Proved whenever the function returns, except for names with a backslash. It does not always return: see C06 and C31.
  C58_json_partial
C59 proved For every byte string, build and position; names, RDATA and records are specified by inductive relations in Spec/Wire.
  C59_record_iff
  C59_other_class
  C59_unknown_type
  C59_truncated
  C59_prefix
C60 partial False for TXT records with empty data (C05_fails_for_empty_txt). Proved for all other records; different records being written differently is proved for encodable ones.
  C60_write_partial
  C60_type_numbers
  C60_integers
  C60_write_injective_partial
C61 partial False of the code: the strings of a TXT record are joined and cut again at 255 bytes, so the good signature of a record with strings a, b is rejected (C61_fails_split_txt); likewise an NSEC record whose next name has capital letters (C61_fails_capital_next_name). Proved: exactly which RDATA and records are preserved.
  C61_rdata_preserved_iff
  C61_record_preserved_iff_partial
  C61_fails_split_txt
  C61_fails_capital_next_name
C62 proved For every input and every behaviour of the cryptographic library.
  C62_root_of_trust
C64 proved For every byte string; composition of C59, C21/C27 and C33.
  C64_end_to_end
  C64_complete
C65 proved Stated extensionally: the answers to one question per RRSIG determine the result. (How often the question is asked again when a zone is visited several times is C55.)
  C65_one_check_per_call
  C65_one_check_per_rrsig
C66 partial False of the code for signatures over key sets, whose signer name is not looked at (C66_fails_foreign_signer). Proved for all other signatures.
  C66_signer_partial
  C66_fails_foreign_signer
C67 partial The documented guarantee of ProofBuilder::new is false of the code for answers signed by the root zone itself (verification does not return), for more than four zones below the root (no proof), for the types DNSKEY and DS, and for zones that sign their key set with a key besides the one the DS record is for (rejected if the resolver returns that signature first). Proved exactly when the proof verifies, for every order of responses and for the stream driver, for answers of all other types that depend on one to four zones: if and only if in each response with a key set the signatures by keys the DS records are for come first (always so if there are no others), and it is rejected as invalid otherwise; any number of signatures and keys per set, some of them of unknown algorithms; the answer may contain records without signatures such as synthesized CNAMEs.
  C67_build_then_verify_partial
  C67_driver_partial
  C67_verifies_iff_partial
  C67_single_signer
  C67_fails_in_root_zone
  C67_fails_for_zone_signed_keys
  C67_fails_for_five_zones
  C67_fails_for_dnskey
  C67_fails_for_ds
C63 partial False of the code in that the records may be of another domain and type (resolve_name is not called) and in that exception texts are not escaped in the error object; the promise may also stay unsettled where verification does not return (C31). Proved: the exact course of requests, at most ten requests, authenticity of all records returned, and the exact result with an honest resolver (as far as C67 holds, names without backslashes).
  C63_course
  C63_at_most_ten_requests
  C63_settles
  C63_query_recoverable
  C63_authentic_partial
  C63_honest_partial
  C63_fails_for_other_domain
  C63_fails_for_exception_text
C68 partial False of the code in debug builds: an RRSIG claiming 255 labels over a record set that is not in the proof overflows (C68_fails_for_255_labels), and so does writing an RRSIG whose data is longer than 65535 bytes (C68_fails_for_long_signature) and verifying one with such data (C68_fails_for_long_salt). Proved for release builds without condition, and for debug builds for every other input.
  C68_release_never_panics
  C68_debug_as_release_partial
  C68_parsed_partial
  C68_parsed_records_written
  C68_write_partial
  C68_key_tag
  C68_fails_for_255_labels
  C68_fails_for_long_signature
  C68_fails_for_long_salt
C69 partial False if only the operators of zones above the name are honest, because containment in a zone is decided on the text of names (C69_fails_for_textual_suffix). Proved for every proof, if the operators of all zones whose name is a textual suffix of the record's name are honest.
  C69_only_signed_partial
  C69_fails_for_textual_suffix
C70 partial False of the code: the NSEC record of the very name, and one whose next name is below it, are taken for denials (C70_fails_for_existing_name, C70_fails_below_empty_non_terminal). Proved: a record verified through a wildcard needs an NSEC or NSEC3 record signed by an operator that denies the next closer name in the sense of the code; and, exactly, which names and types the records of a whole zone deny in that sense: it does not depend on whether the name exists (C70_fails_in_every_zone).
  C70_wildcard_denied_partial
  C70_fails_for_existing_name
  C70_fails_below_empty_non_terminal
  C70_fails_in_every_zone
  C70_nsec_denied_iff
  C70_nsec3_denied_iff
C71 proved
  C71_only_relevant_records_matter
  C71_padding
  C71_unsigned_records
  C71_zones_without_delegation
C72 partial False of the code: a repeated record is put into the signed data twice, so its good signature is rejected (C72_fails_for_repeated_record). Proved: two accepted proofs with the same records, repeated or not, verify the same records, without conditions (the window as in C36); and repeated signatures do not matter for acceptance, under the conditions of C36.
  C72_same_records
  C72_same_result_partial
  C72_acceptance_partial
  C72_fails_for_repeated_record
C73 partial False of the code: the bitmaps of C06 also occur in responses (C73_fails_nsec_window). Proved: exactly which responses and streams panic (dbg = true stands for the assertions of the parser; the overflow checks of debug builds are C77).
  C73_process_response_panics_iff_partial
  C73_release_no_panic_partial
  C73_driver_panics_iff_partial
  C73_fails_nsec_window
C74 partial False of the code: a response that panics (C73) ends the task, and the client gets no answer (C74_fails_nsec_window). Proved: exactly when this happens, what is answered otherwise, and that the proof served verifies in the worlds of C67.
  C74_panics_exactly_partial
  C74_answered_iff_partial
  C74_panics_iff_partial
  C74_response
  C74_answered_partial
  C74_served_proof_verifies_partial
  C74_fails_nsec_window
C75 partial False of the code: when accepting a connection fails (for instance for want of file descriptors) the server panics and all clients are dropped (C75_fails_when_accept_fails). Proved for every run in which accepting does not fail; and that a client never gets anything but what it would get alone.
  C75_served_as_if_alone_partial
  C75_no_other_outcome
  C75_keeps_accepting_partial
  C75_fails_when_accept_fails
C76 partial False of the code for plain concatenation, which repeats records (C76_fails_for_concatenation), and when one proof has an unsigned record in a set signed in another (C76_fails_for_unsigned_records). Proved for merges in which each signed set is as in the proofs it is from, for proofs without stray signatures (C76_fails_for_stray_signatures) that meet the conditions of C36; and, without conditions, that an accepted combination verifies everything its accepted parts verify.
  C76_verifies_all
  C76_combined_partial
  C76_fails_for_concatenation
  C76_fails_for_stray_signatures
  C76_fails_for_unsigned_records
C77 partial False of the code: an RRSIG that exceeds 65535 octets once its signer is decompressed panics in debug builds and is accepted, and written with a wrong length, in release builds (C77_fails_for_long_rrsig, C48_fails_for_long_rrsig). Proved: a debug build that does not panic does the same, and exactly when it panics.
  C77_debug_is_release_partial
  C77_driver_debug_is_release_partial
  C77_debug_panics_iff_partial
  C77_short_messages
  C77_fails_for_long_rrsig
C78 proved The work counted is the octets read, copied, cleared and written by the parser and the record loops; sorting the signer names is not counted. Verification is C55 and C65.
  C78_name_work
  C78_stream_work
  C78_response_work
  C78_stream_counted
  C78_response_counted
  C78_growth
  C78_history
  C78_driver
  C78_growth_attained
C79 partial True for contents that fit in the stack part (2048 bytes), for all histories. Refuted for longer contents: bytes left on the stack count in the comparison.
  C79_equal_contents
  C79_iff_partial
  C79_fails_on_the_heap
C80 partial The bounds hold per visit of a zone, and the other two parts hold unconditionally. Refuted without the number of visits: a zone with delegations from two others is checked twice, and 2^n signature checks are possible with (n+3)^2 records. If no two zones delegate to the same one the bounds hold as stated, in particular for honest proofs.
  C80_same_result
  C80_signatures_partial
  C80_digests_partial
  C80_hashes_partial
  C80_warranted
  C80_stops
  C80_total_partial
  C80_fails_checked_twice
  C80_fails_exponential
  C80_once_partial
  C80_honest_partial
  C80_all_listed
  C80_hash_warranted
C81 proved For every incremental hash engine that computes the hash of the concatenation of its input (the engines themselves are in a dependency).
  C81_hash_of_concatenation
  C81_ds_digest
  C81_nsec3_hash
  C81_same_decisions
C82 partial Assertions and the shortcut hold for all inputs; fuzz_proof_builder always returns; the inputs on which the targets panic are characterised. Refuted as stated: the response of C73 makes two targets panic, and the third does not return on the DNSKEY set of the root.
  C82_base32_assertions
  C82_signatures
  C82_signatures_iff
  C82_response_partial
  C82_builder_returns
  C82_builder_panics_iff_partial
  C82_fails_nsec_window
  C82_validate_no_panic_partial
  C82_fails_hangs
C83 partial False of the code: the last record of a chain, which points back to the first, never counts as a denial. So wildcards cannot be proved for any name after the last one of the zone (NSEC) or with a hash outside the zone's (NSEC3), whatever the proof contains (C83_fails_*). Proved, exactly: the names between two owners are denied, and such proofs accepted.
  C83_nsec_complete
  C83_nsec_iff
  C83_fails_after_last_name
  C83_nsec3_complete
  C83_nsec3_iff
  C83_fails_outside_hashes
  C83_accepted_partial
  C83_fails_smallest_zone
  C83_fails_smallest_zone_nsec3
C84 partial False of the code for DS and DNSKEY sets (C84_fails_*): they are accepted from wildcards without a denial, even next to a signed record that shows there is no DS set at the name. Proved: if none of those is for a wildcard, all other signatures used come with denials.
  C84_fails_for_ds
  C84_fails_for_dnskey
  C84_denials_partial
C85 partial False of the code: responses are not compared with the question; for every pair of questions, a builder for one accepts the responses to the other (C85_fails_other_question). Proved for resolvers that answer what they are asked.
  C85_fails_other_question
  C85_fails_for_example
  C85_answers_partial
C86 partial False of the code: SHA-384 digests are not computed, and a DS set with one and no SHA-256 digest is always Invalid (C86_fails_without_sha256, for all inputs). Proved: beside SHA-256 DS records they make no difference.
  C86_fails_without_sha256
  C86_ignored_partial
C87 partial False of the code: the REVOKE flag is not looked at (C87_fails_*). Proved: a DS record (or built-in anchor) for a key does not vouch for its revoked form, for all keys and hash functions.
  C87_fails_for_data
  C87_fails_for_keys
  C87_old_anchor_partial
C88 partial False of the code: the result of writing the header is ignored, so if that fails and later writes succeed the client receives the bare proof (C88_fails_after_failed_write, for every request that is answered with a proof). Proved: complete if no write fails, an initial part if failures are permanent. write_all of tokio is modelled from its documentation.
  C88_complete
  C88_prefix_partial
  C88_fails_after_failed_write
C89 partial False of the code: for signatures that last over 68 years, whose expiration as a serial number is in the past (C89_fails_long_lifetime), and by one second after 2106 (C89_fails_overflow). Proved for all other signatures, and exactly until 2106.
  C89_sound_partial
  C89_exact_partial
  C89_fails_long_lifetime
  C89_fails_overflow
C90 partial False of the code: the TTL is the lowest one the resolver sent, so it can be above the original TTL and go beyond the expiry of the signatures (two refutations). Proved for resolvers that cap TTLs as RFC 4034 3.1.4 and RFC 4035 5.3.3 say.
  C90_ttl_partial
  C90_expiry_partial
  C90_fails_above_original
  C90_fails_expiry
C91 partial Proved without conditions for the records. False for the validity window and TTL: of several good signatures over a key set the first one counts, so adding one can extend the window (C91_fails_window). Proved for them if the signatures over each key set have the same times.
  C91_records
  C91_window_partial
  C91_fails_window
C92 partial False for labels that contain a dot: they are read as several labels (C92_fails_for_dot), even after a reserved length octet (C92_fails_for_reserved_type), so that a zone's good signature over a record with such a name is rejected (C92_fails_for_signature). Proved for all names without dots in labels.
  C92_labels_partial
  C92_different_partial
  C92_only_names_partial
  C92_fails_for_dot
  C92_fails_for_reserved_type
  C92_fails_for_signature
C93 partial Proved: UnsupportedAlgorithm implies an authenticated delegation with something unsupported in it, and zones with nothing but unsupported signatures over their keys are reported. False in the strong form: any accepted proof through a zone that has one unsupported algorithm among supported ones can be turned into UnsupportedAlgorithm without any key (C93_fails_downgrade), and records signed with unsupported algorithms only are not reported (C93_fails_for_data).
  C93_wished_partial
  C93_reported_partial
  C93_wished_rfc_partial
  C93_reported_rfc_partial
  C93_fails_downgrade
  C93_fails_for_data
C94 partial Proved if the operators of all zones whose name is a textual suffix of a name on the way are honest and verified DNAMEs are applied only to names below their owner (C94_published_partial); without that condition with DNAMEs as the code applies them. False otherwise: even with honest operators only, a DNAME is applied to names that are not below it (C94_fails_for_dname), and the operator of oogle.com. can answer for google.com. (C94_fails_for_textual_suffix).
  C94_published_partial
  C94_textually_partial
  C94_fails_for_dname
  C94_fails_for_textual_suffix
C95 partial Proved for every order of responses and for the driver, where C67 holds and no name on the way ends, as text, in the owner name of a DNAME without being below it. False otherwise: when d.c. has moved to ad.c. the address is in the proof but resolve_name returns nothing (C95_fails_for_longer_name).
  C95_question_answered_partial
  C95_driver_partial
  C95_fails_for_longer_name
C96 partial Sorting records and names leaves no choice. Without conditions: the same result, or one build accepts and the other reports Invalid. The same result if no two zones have wildcard expansions with the same next closer name. False otherwise: the denial is looked for in the zone of the one that happens to be sorted last (C96_fails_for_shared_name).
  C96_records_one_way
  C96_names_one_way
  C96_model_sorts
  C96_same_or_rejected_partial
  C96_same_result_partial
  C96_fails_for_shared_name
C97 proved For every resolver whose responses depend on the query only, and every two schedules. Sessions consist of accepted responses; C97_any_order shows that no response is rejected in one order if a proof results in another.
  C97_any_order
  C97_succeeds_iff
  C97_same_records
  C97_driver
C98 partial False of the code where a wildcard covers a name with records of its own: both answers can be proved at the same time (C98_fails_for_wildcards). Proved if operators publish one record set at a time for each name and type, counting wildcards; for the operators of all zones whose name is a textual suffix (see C69).
  C98_same_data_partial
  C98_same_records_partial
  C98_without_wildcards_partial
  C98_same_answers_partial
  C98_fails_for_wildcards
C99 proved Full equality of the results, including rejections and panics.
  C99_parse
  C99_verify
C100 partial False of the code: neither lookup_doh nor verify_byte_stream looks at the clock, so records with signatures that expired long ago are returned (C100_fails_expired). Proved: the window returned is one in which all signatures are valid, and contains every time at which all signatures of a correctly signed world are valid.
  C100_fresh
  C100_window_partial
  C100_fails_expired
C101 partial False of the code at the delegation of the zone itself: the parent's NSEC record there denies every name and type in the child (C101_fails_denies_everything), and is accepted as denial for wildcard expansions in the child (C101_fails_in_every_child); and NSEC3 records of the parent are too if their hash ends in the child's label (C101_fails_nsec3). Proved: denials do not rest on records with owners strictly above the zone.
  C101_ancestors_partial
  C101_fails_denies_everything
  C101_fails_in_every_child
  C101_fails_nsec3
C102 partial False of the code where two zones need the denial of the same name: the address verified there has no proof of its own (C102_fails_for_shared_name). Proved: what is verified without some of the signatures and for how long; every record that is not an expansion of a wildcard has a proof of its own; so has every record if no two zones need the denial of the same name and no zone uses more than two sets of NSEC3 parameters.
  C102_fewer_signatures
  C102_alone_partial
  C102_each_alone_partial
  C102_fails_for_shared_name
C103 partial False of the code, which rejects a proof because of one signature by a key that is not in the key set, or if the first signature over the key set is by a key without a DS record, where RFC 4035 asks for one good signature. So Double-KSK rollovers can fail depending on the order of the signatures (C103_fails_double_ksk), Double-Signature rollovers while caches expire, and algorithm rollovers at two stages (C103_fails_unpublished_signer, C103_fails_double_signature). Proved: Pre-Publish and Double-DS rollovers, at all stages and with caches, and the exact condition for key sets.
  C103_rollovers_validate
  C103_stage_partial
  C103_pre_publish_double_ds
  C103_accepted_partial
  C103_fails_unpublished_signer
  C103_fails_double_signature
  C103_first_signature_iff
  C103_fails_double_ksk
C104 partial The length is not limited: finish_proof returns proofs of over a million octets, made from a response of 28272 (C104_fails_length). Proved otherwise, for at most four zones below the root (with more there is no proof, C67); acceptance for any number of zones but none, exactly when signatures by keys in the DS sets come first.
  C104_built_partial
  C104_accepted_iff_partial
  C104_accepted_partial
  C104_fails_length
C105 partial False of the code, which tries the first matching key only (so that work is bounded, C65): in every zone in which two keys match the same signatures, every proof with a signature by the second is rejected (C105_fails_in_every_zone, C105_fails_for_order); anyone who may add keys to a zone can make such a key (C105_collisions_exist). Proved: the property if at most one key matches; that only the first key counts; and that for key sets only keys with DS records count.
  C105_sound
  C105_accept_iff_partial
  C105_first_only_iff
  C105_fails_in_every_zone
  C105_key_set_partial
  C105_collisions_exist
  C105_fails_for_order
C106 partial False of the code: the key of 2010, whose validity ended in 2019, is trusted (C106_fails_retired); that of 2024 is not, so that every proof is rejected once the root key set is signed with it alone (C106_fails_successor); and while a key is revoked, proofs with the signature by the revoked key first are rejected (C106_fails_revoked_first, C106_fails_revoking). Proved: the trusted keys are the published ones from 2017-02-02 until 2019-01-11, the published ones are trusted until 2024-07-18, and the root is then established whatever the order of the signatures.
  C106_trusted_iff_partial
  C106_published_trusted_partial
  C106_root_established_partial
  C106_fails_successor
  C106_fails_revoked_first
  C106_fails_retired
  C106_fails_revoking
C107 partial False of the code: the asterisk is not counted in the labels of the signature but is in those of the name, so the records count as expanded, and a denial of the name they are at is required: without one every such proof is rejected (C107_needs_denial_of_itself, C107_fails_without_denial, C107_fails). Proved: the signature is over the name as presented, and proofs that also contain the NSEC record of the wildcard's own name (which the code takes as the denial) are accepted.
  C107_signed_owner
  C107_needs_denial_of_itself
  C107_fails_without_denial
  C107_accepted_partial
  C107_fails
C108 proved For every builder and response. The plain message is given for records that can be written (C03).
  C108_only_records
  C108_rest_ignored
  C108_uncompressed
C109 partial False of the code: every proof with such a record is unreadable, every response with one in the answer or authority section is rejected, and every proof with a signature over one by a zone it gets to is rejected (C109_fails_in_every_proof, C109_fails_in_every_response, C109_fails_for_signatures); also responses of correctly functioning resolvers (C109_fails_alias_without_records). Proved for the additional section.
  C109_additional_partial
  C109_fails_in_every_proof
  C109_fails_in_every_response
  C109_fails_for_signatures
  C109_fails_alias_without_records
C110 proved For every execution of the driver as a process, the connection and a resolver. Some room is needed (C110_room_needed has an execution that deadlocks with 41 and 512 bytes). Failures of the connection are in C47 and C73.
  C110_goes_on
  C110_sending_writes
  C110_ends
  C110_result
  C110_returns
  C110_room_needed
C111 partial False of the code: there is no timeout, so that with a resolver that never answers the driver waits forever (C111_fails_silent_resolver). Proved: it waits only when it has written all its queries, has read all that has arrived, and a response is due.
  C111_waits_partial
  C111_fails_silent_resolver
C112 partial False of the code for all clients together: every connection is accepted and there is no timeout, so that idle clients and clients that do not read add up (C112_fails_idle_clients, C112_fails_slow_readers). Proved: at most 25 million octets for each client that is connected, at every moment of every run and however slowly it reads, fewer than 4096 while the request is read, and nothing afterwards.
  C112_per_client_partial
  C112_request_partial
  C112_total_partial
  C112_slow_readers_partial
  C112_connected_partial
  C112_given_back
  C112_fails_idle_clients
  C112_fails_slow_readers
C113 partial False of the code, which does not return denials: from every proof of two record sets one can be left out, what remains is accepted and resolve_name returns no such records (C113_fails_in_every_proof; C113_fails_for_tlsa with honest operators only). Proved: if one record of a set is returned, all are that the operators stand by.
  C113_sets_are_complete_partial
  C113_fails_in_every_proof
  C113_fails_for_tlsa
C114 partial False of the code: n DNAMEs can count in binary. For every n up to 126 there is an accepted stream of 2n+8 records, of an ordinary zone, in which the lookup of a name follows exactly 2^n-1 aliases and then returns an address (C114_fails_exponential). Proved: if DNAMEs do not lead to DNAMEs, at most two per CNAME and one more; in any case finitely many when it returns (fewer than there are names).
  C114_fails_exponential
  C114_few_partial
  C114_finite_partial
C115 proved For all proofs and any set of stolen keys; the bound on expires is exact (C115_until_then: a forgery is accepted until the DS set expires).
  C115_forgeries_expire
  C115_until_then
C116 partial False of the code, even in an ordinary zone: with DNAMEs at d.c. and ad.c., neither below the other, x.ad.c. resolves to one or the other target depending on the order (C116_fails_for_two_dnames), because suffixes are compared as text and the first match is taken, not the longest. Proved if there is at most one way on from each name visited.
  C116_same_answers_partial
  C116_fails_for_two_dnames
C117 partial RFC 4035 section 5 is one inductive definition (Spec/Secure.lean), independent of how the code works. Completeness holds for every accepted input. Soundness is false of the code (C117_fails_*: a signer whose name is only textually the end of the owner's, a key set signed in another name; and C29, C84, C89); proved for proofs in which none of the known deviations occurs (Conventional, eight conditions that can be read off the records).
  C117_secure_partial
  C117_complete
  C117_exact_partial
  C117_fails_for_textual_suffix
  C117_fails_foreign_signer
C118 partial False of the code: the records of a wildcard of the parent are returned for names in a child zone, because the NSEC record at the delegation is taken for a denial (C118_fails_through_wildcards, with honest operators); and the code never compares signers with delegations (C118_fails_below_delegation). Proved for all records if no operator delegates names below the parent of one of their wildcards, and in any case for records that do not come from wildcards.
  C118_signer_partial
  C118_wildcards_apart_partial
  C118_without_wildcards_partial
  C118_fails_through_wildcards
  C118_fails_below_delegation
C119 partial False of the code: entries are added to the list of denials to be looked for each time a zone is looked at. A proof of four records for which verification does not end makes it grow without bound (C119_fails_unbounded), and with n + 1 zones and about n^2/2 records it reaches 2^(n-1) entries before verification ends (C119_fails_exponential). Proved: always for records and zones (C119_records_and_zones), and for the denials if each zone has one parent, the root delegates and no zone delegates to itself (C119_needs_partial). Temporary vectors of one iteration (keys of the zone, records of the set) are not counted; each is a subset of the input.
  C119_states
  C119_records_and_zones
  C119_each_zone
  C119_needs_partial
  C119_fails_unbounded
  C119_fails_exponential
C120 partial False of the code: the signer names in a response are not compared with the question or with the owner names of the records; a single response makes a builder ask for the keys and DS sets of any four names (C120_fails_any_names). Proved: with a resolver that answers from correctly signed zones, all queries are the question or for zones that names of the answer are in; with any resolver, all names asked for have been named as a signer in an accepted response, and likewise all URLs requested by the client of DNS over HTTPS.
  C120_zones_of_the_answer_partial
  C120_named_in_responses_partial
  C120_doh_partial
  C120_fails_any_names
C121 partial False of the code: there is no timeout and no limit on connections, and when accepting fails the server panics, so that silent clients, as many as there are descriptors, end it (C121_fails_silent_clients). Proved: at most two sockets for each client that is connected, none left open afterwards (C121_sockets, C121_given_back), and the server stays up as long as fewer clients than half the number of descriptors are connected at the same time (C121_stays_up_partial); half is the best that can be said (C121_half_is_needed).
  C121_sockets
  C121_given_back
  C121_stays_up_partial
  C121_half_is_needed
  C121_fails_silent_clients
C122 proved For runs in which accepting does not fail (otherwise: C75, C121). A write that blocks is a task that is not woken. The two write_all calls of a proof are one buffer here; a first one that fails with a second that succeeds is C88.
  C122_delivered
  C122_complete
  C122_initial_part
  C122_eventually
