{
 "claims": [
  {
   "property": "C01",
   "status": "proved",
   "theorems": [
    "Dnssec.Props.C01_try_from_iff",
    "Dnssec.Props.C01_case_insensitive",
    "Dnssec.Props.C01_idempotent"
   ],
   "note": ""
  },
  {
   "property": "C02",
   "status": "proved",
   "theorems": [
    "Dnssec.Props.C02_names_have_labels",
    "Dnssec.Props.C02_wire",
    "Dnssec.Props.C02_labels",
    "Dnssec.Props.C02_trailing_none",
    "Dnssec.Props.C02_trailing_some",
    "Dnssec.Props.C02_empty_labels_differ"
   ],
   "note": ""
  },
  {
   "property": "C03",
   "status": "partial",
   "theorems": [
    "Dnssec.Props.C03_round_trips_iff",
    "Dnssec.Props.C03_write_then_parse_partial",
    "Dnssec.Props.C03_parsed_records_round_trip_partial",
    "Dnssec.Props.C03_fails_for_empty_txt",
    "Dnssec.Props.C03_fails_for_empty_labels",
    "Dnssec.Props.C03_fails_for_long_salt"
   ],
   "note": "Proved for exactly the records that are encodable (C03_round_trips_iff), in particular for every record read from a proof stream that has no empty label and is not an empty TXT. The statement for all records is false: refuted for empty TXT data, names with empty labels and oversize NSEC3 salts."
  },
  {
   "property": "C04",
   "status": "partial",
   "theorems": [
    "Dnssec.Props.C04_stream_of_writes_partial",
    "Dnssec.Props.C04_stream_iff_pieces",
    "Dnssec.Props.C04_concatenation",
    "Dnssec.Props.C04_fails_after_empty_txt"
   ],
   "note": "Compositionality and full consumption are proved for all inputs; inversion of write_rr sequences is proved for encodable records and refuted for an empty TXT record."
  },
  {
   "property": "C05",
   "status": "partial",
   "theorems": [
    "Dnssec.Props.C05_length_prefix_iff",
    "Dnssec.Props.C05_length_prefix_partial",
    "Dnssec.Props.C05_fails_for_empty_txt",
    "Dnssec.Props.C05_fails_for_oversize"
   ],
   "note": "Holds exactly for the records with at most 65535 bytes of RDATA that are not an empty TXT (C05_length_prefix_iff); refuted for the others."
  },
  {
   "property": "C06",
   "status": "partial",
   "theorems": [
    "Dnssec.Props.C06_record_panics_iff",
    "Dnssec.Props.C06_release_no_panic_partial",
    "Dnssec.Props.C06_release_no_panic_small_bytes_partial",
    "Dnssec.Props.C06_fails_nsec_window",
    "Dnssec.Props.C06_fails_debug_trailing"
   ],
   "note": "The exact condition under which parsing panics is proved. The property itself is false (a 47-byte NSEC record panics; debug assertions panic on trailing bytes)."
  },
  {
   "property": "C07",
   "status": "proved",
   "theorems": [
    "Dnssec.Props.C07_read_name_iff",
    "Dnssec.Props.C07_never_panics",
    "Dnssec.Props.C07_stream_names_are_plain",
    "Dnssec.Props.C07_stream_pointer_rejected",
    "Dnssec.Props.C07_plain_names_decode"
   ],
   "note": ""
  },
  {
   "property": "C08",
   "status": "proved",
   "theorems": [
    "Dnssec.Props.C08_membership",
    "Dnssec.Props.C08_new_is_empty"
   ],
   "note": ""
  },
  {
   "property": "C09",
   "status": "proved",
   "theorems": [
    "Dnssec.Props.C09_round_trip",
    "Dnssec.Props.C09_length",
    "Dnssec.Props.C09_canonical",
    "Dnssec.Props.C09_read_meaning"
   ],
   "note": ""
  },
  {
   "property": "C10",
   "status": "proved",
   "theorems": [
    "Dnssec.Props.C10_read_iff",
    "Dnssec.Props.C10_read_fails",
    "Dnssec.Props.C10_write"
   ],
   "note": ""
  },
  {
   "property": "C11",
   "status": "proved",
   "theorems": [
    "Dnssec.Props.C11_never_panics",
    "Dnssec.Props.C11_canonical_order"
   ],
   "note": ""
  },
  {
   "property": "C12",
   "status": "partial",
   "theorems": [
    "Dnssec.Props.C12_sorted_partial",
    "Dnssec.Props.C12_same_shape_partial",
    "Dnssec.Props.C12_canonical_order_partial",
    "Dnssec.Props.C12_fails_for_ns",
    "Dnssec.Props.C12_fails_for_cname_dname",
    "Dnssec.Props.C12_fails_for_nsec",
    "Dnssec.Props.C12_fails_for_nsec3"
   ],
   "note": "Proved for A, AAAA, TXT, TLSA, DNSKEY and DS, and for NS records whose name servers have labels of the same lengths; refuted for NS in general, CNAME, DNAME, NSEC and NSEC3."
  },
  {
   "property": "C13",
   "status": "partial",
   "theorems": [
    "Dnssec.Props.C13_partial_cmp_total_order",
    "Dnssec.Props.C13_cmp_total_order",
    "Dnssec.Props.C13_orders_agree_partial",
    "Dnssec.Props.C13_orders_disagree_on_txt"
   ],
   "note": "Both orders are proved total; they agree except on pairs of TXT records, where agreement is refuted."
  },
  {
   "property": "C14",
   "status": "proved",
   "theorems": [
    "Dnssec.Props.C14_key_tag",
    "Dnssec.Props.C14_no_overflow"
   ],
   "note": ""
  },
  {
   "property": "C15",
   "status": "proved",
   "theorems": [
    "Dnssec.Props.C15_encode_is_rfc4648",
    "Dnssec.Props.C15_decode_iff",
    "Dnssec.Props.C15_round_trip"
   ],
   "note": ""
  },
  {
   "property": "C16",
   "status": "proved",
   "theorems": [
    "Dnssec.Props.C16_split_iff",
    "Dnssec.Props.C16_fails_iff"
   ],
   "note": ""
  },
  {
   "property": "C17",
   "status": "proved",
   "theorems": [
    "Dnssec.Props.C17_canonical",
    "Dnssec.Props.C17_texts",
    "Dnssec.Props.C17_total_order"
   ],
   "note": ""
  },
  {
   "property": "C18",
   "status": "partial",
   "theorems": [
    "Dnssec.Props.C18_resolve_partial",
    "Dnssec.Props.C18_off_by_one",
    "Dnssec.Props.C18_monotone_partial",
    "Dnssec.Props.C18_not_strict"
   ],
   "note": "Proved for times from the cutoff on; below it the result is one second early (refuted), and order is preserved only weakly."
  },
  {
   "property": "C19",
   "status": "proved",
   "theorems": [
    "Dnssec.Props.C19_order_of_records",
    "Dnssec.Props.C19_sort_unique"
   ],
   "note": ""
  },
  {
   "property": "C20",
   "status": "partial",
   "theorems": [
    "Dnssec.Props.C20_accept_iff_partial",
    "Dnssec.Props.C20_same_shape_partial",
    "Dnssec.Props.C20_unsupported_iff_partial",
    "Dnssec.Props.C20_unsupported_never_ok",
    "Dnssec.Props.C20_other_keys_ignored",
    "Dnssec.Props.C20_never_panics",
    "Dnssec.Props.C20_fails_for_ns",
    "Dnssec.Props.C20_fails_for_empty_txt",
    "Dnssec.Props.C20_sound_partial"
   ],
   "note": "Proved as an iff for RRsets whose canonical form and order the crate computes: A, TXT (not empty), AAAA, DS, DNSKEY, TLSA sets, NS sets whose texts compare like their wire forms (in particular with labels of the same lengths) and single records of any type, with names without empty labels. False for others: some correctly signed NS sets and empty TXT records are rejected (two refutations). Soundness of unsupported algorithms, ignored keys and absence of panics need no such assumption."
  },
  {
   "property": "C54",
   "status": "proved",
   "theorems": [
    "Dnssec.Props.C54_signed_bytes_determine_rrset"
   ],
   "note": ""
  },
  {
   "property": "C21",
   "status": "proved",
   "theorems": [
    "Dnssec.Props.C21_chain_of_trust",
    "Dnssec.Props.C21_chain_of_trust_rfc",
    "Dnssec.Props.C21_all_key_sets"
   ],
   "note": "For every input: under verify_rrsig's own notion of a good signature without hypotheses, and under the RFC 4034 notion when all signed RRsets are proper (see C20)."
  },
  {
   "property": "C22",
   "status": "partial",
   "theorems": [
    "Dnssec.Props.C22_fails_for_textual_suffix",
    "Dnssec.Props.C22_containment_partial",
    "Dnssec.Props.C22_labelwise_partial"
   ],
   "note": "False of the code: containment is tested on text, so oogle.com. can sign for google.com. (refuted by C22_fails_for_textual_suffix). Proved: the owner is at or below the signer's parent and the label at the signer's position ends in the signer's first label; label-wise containment when the text match is at a dot."
  },
  {
   "property": "C23",
   "status": "proved",
   "theorems": [
    "Dnssec.Props.C23_contents"
   ],
   "note": ""
  },
  {
   "property": "C24",
   "status": "proved",
   "theorems": [
    "Dnssec.Props.C24_window",
    "Dnssec.Props.C24_C25_rfc"
   ],
   "note": ""
  },
  {
   "property": "C25",
   "status": "proved",
   "theorems": [
    "Dnssec.Props.C25_ttl",
    "Dnssec.Props.C24_C25_rfc"
   ],
   "note": ""
  },
  {
   "property": "C26",
   "status": "proved",
   "theorems": [
    "Dnssec.Props.C26_bad_signature",
    "Dnssec.Props.C26_bad_signature_rfc",
    "Dnssec.Props.C26_outside_or_over_rrsig",
    "Dnssec.Props.C26_bad_key_set",
    "Dnssec.Props.C26_unsupported_unused"
   ],
   "note": ""
  },
  {
   "property": "C27",
   "status": "proved",
   "theorems": [
    "Dnssec.Props.C27_exact",
    "Dnssec.Props.C27_exact_rfc"
   ],
   "note": ""
  },
  {
   "property": "C28",
   "status": "proved",
   "theorems": [
    "Dnssec.Props.C28_wildcard_needs_denial",
    "Dnssec.Props.C28_wildcard_needs_denial_rfc"
   ],
   "note": ""
  },
  {
   "property": "C29",
   "status": "partial",
   "theorems": [
    "Dnssec.Props.C29_fails_for_existing_name",
    "Dnssec.Props.C29_fails_for_other_zone",
    "Dnssec.Props.C29_fails_for_shared_name",
    "Dnssec.Props.C29_denial_partial",
    "Dnssec.Props.C29_used_partial"
   ],
   "note": "False of the code: an NSEC at the very name that has the type, and an NSEC of another zone, count as denials; the zone may even be unrelated as text if it needs the denial of the same name (three refutations). Proved for every accepted stream: what a wildcard record rests on is a proper denial, or has the name (or its hash) itself as owner, and is from below a zone that expanded a wildcard with the same next closer name."
  },
  {
   "property": "C30",
   "status": "proved",
   "theorems": [
    "Dnssec.Props.C30_limits",
    "Dnssec.Props.C30_two_parameter_sets",
    "Dnssec.Props.C30_others_ignored",
    "Dnssec.Props.C28_wildcard_needs_denial"
   ],
   "note": ""
  },
  {
   "property": "C32",
   "status": "proved",
   "theorems": [
    "Dnssec.Props.C32_accept_iff",
    "Dnssec.Props.C32_empty",
    "Dnssec.Props.C32_unknown_digest",
    "Dnssec.Props.C32_sha1_ignored"
   ],
   "note": ""
  },
  {
   "property": "C31",
   "status": "partial",
   "theorems": [
    "Dnssec.Props.C31_diverges",
    "Dnssec.Props.C31_root_exact",
    "Dnssec.Props.C31_fails_root_only",
    "Dnssec.Props.C31_fails_real_root",
    "Dnssec.Props.C31_fails_real_root_bytes",
    "Dnssec.Props.C31_fails_self_delegation",
    "Dnssec.Props.C31_terminates_partial",
    "Dnssec.Props.C31_ok_needs",
    "Dnssec.Props.C31_answer_unique"
   ],
   "note": "False of the code: verify_rr_stream loops forever when the root zone validates but signs no DS set, and when a zone signs a DS set for itself (C31_fails_*; C31_diverges says this of every such input that is otherwise in order). Proved: it returns on all other inputs, within (n+1)^255 zones; the excluded inputs are never accepted. Model: fuel bounds the number of zones processed, none means it did not suffice."
  },
  {
   "property": "C36",
   "status": "partial",
   "theorems": [
    "Dnssec.Props.C36_fails_for_redundant_signatures",
    "Dnssec.Props.C36_fails_for_equal_key_tags",
    "Dnssec.Props.C36_fails_for_shared_name",
    "Dnssec.Props.C36_fails_for_three_parameter_sets",
    "Dnssec.Props.C36_fails_window",
    "Dnssec.Props.C36_same_records",
    "Dnssec.Props.C36_same_result_partial",
    "Dnssec.Props.C36_acceptance_partial"
   ],
   "note": "False of the code when a zone's key set has several RRSIGs of which only one is made by an anchored key (C36_fails_for_redundant_signatures), when two keys of a zone have the same tag (C36_fails_for_equal_key_tags), with three sets of NSEC3 parameters (C36_fails_for_three_parameter_sets), and when two zones need the denial of the same name (C36_fails_for_shared_name). The window is that of the first of several good signatures over a key set (C36_fails_window). Proved: any two orders that are both accepted verify the same records, without conditions; the same window and TTL if the signatures over each key set have the same times; and the same acceptance if, also, those signatures are all good or all bad, no two keys are eligible for the same RRSIG and the denials are uniform."
  },
  {
   "property": "C55",
   "status": "partial",
   "theorems": [
    "Dnssec.Props.C55_fails_exponential",
    "Dnssec.Props.C55_bound_partial",
    "Dnssec.Props.C55_once_partial"
   ],
   "note": "False of the code: for every n up to 127 there is an input of at most (n+3)^2 records that takes exactly 2^n zone visits (C55_fails_exponential). Proved: the bound (n+1)^L with L the longest RRSIG owner name; and, if no two zones delegate to the same one, as in the DNS, each zone is visited once."
  },
  {
   "property": "C56",
   "status": "proved",
   "theorems": [
    "Dnssec.Props.C56_complete",
    "Dnssec.Props.C56_complete_rfc",
    "Dnssec.Props.C56_accept_iff"
   ],
   "note": "Acceptance conditions, sufficient in general (also with signatures as in the RFC) and necessary if denials are uniform."
  },
  {
   "property": "C33",
   "status": "proved",
   "theorems": [
    "Dnssec.Props.C33_returns_iff",
    "Dnssec.Props.C33_answer_unique",
    "Dnssec.Props.C33_returned_records",
    "Dnssec.Props.C33_no_alias",
    "Dnssec.Props.C33_cname"
   ],
   "note": "Chain and result as specified, first matching record first; also answer unique, never a panic. DNAMEs are considered by textual suffix (see C35), which the specification of the chain states as such."
  },
  {
   "property": "C34",
   "status": "partial",
   "theorems": [
    "Dnssec.Props.C34_fails_cname_loop",
    "Dnssec.Props.C34_returns_iff_no_cycle_partial",
    "Dnssec.Props.C34_bound_partial"
   ],
   "note": "False of the code: an accepted stream with a CNAME loop makes resolve_name loop forever (C34_fails_cname_loop). Proved: it returns iff no name is visited twice, with CNAMEs only within as many redirections as records."
  },
  {
   "property": "C35",
   "status": "partial",
   "theorems": [
    "Dnssec.Props.C35_fails_text_suffix",
    "Dnssec.Props.C35_fails_owner_and_root",
    "Dnssec.Props.C35_applies_iff",
    "Dnssec.Props.C35_effect",
    "Dnssec.Props.C35_below_partial"
   ],
   "note": "False of the code: suffixes are compared as text, so a DNAME at c. is applied to xc. (and to c. itself), and DNAMEs from or to the root give wrong names. Proved: exactly which names a DNAME applies to and the effect, which is right for names below the owner."
  },
  {
   "property": "C37",
   "status": "proved",
   "theorems": [
    "Dnssec.Props.C37_buffer_is_a_vector",
    "Dnssec.Props.C37_length"
   ],
   "note": "Refinement to a byte vector for every operation sequence, initial size and stack limit."
  },
  {
   "property": "C38",
   "status": "partial",
   "theorems": [
    "Dnssec.Props.C38_fails_beyond_u16",
    "Dnssec.Props.C38_panics_iff_partial"
   ],
   "note": "False of the code: pushing beyond 65535 bytes always panics although documented not to (C38_fails_beyond_u16). Proved: it panics iff the total exceeds 65535 bytes."
  },
  {
   "property": "C39",
   "status": "partial",
   "theorems": [
    "Dnssec.Props.C39_query_partial",
    "Dnssec.Props.C39_question_iff",
    "Dnssec.Props.C39_no_panic",
    "Dnssec.Props.C39_fails_for_empty_labels"
   ],
   "note": "False for names with an empty label, which can be constructed: the query asks for another name (C39_fails_for_empty_labels). Proved for exactly the other names (C39_question_iff); length and absence of panics for all names."
  },
  {
   "property": "C40",
   "status": "partial",
   "theorems": [
    "Dnssec.Props.C40_accepted_header_partial",
    "Dnssec.Props.C40_fails_rcode_8",
    "Dnssec.Props.C40_fails_extended_rcode"
   ],
   "note": "False of the code: RCODE 8 is accepted, its bit is missing in the mask (C40_fails_rcode_8), and so are extended RCODEs, whose upper octet is in the additional section, which is not read (C40_fails_extended_rcode). Proved: everything else."
  },
  {
   "property": "C41",
   "status": "proved",
   "theorems": [
    "Dnssec.Props.C41_accepts_iff",
    "Dnssec.Props.C41_contributes",
    "Dnssec.Props.C41_unique"
   ],
   "note": "Acceptance, appended bytes, TTL and signers, for every builder state and response."
  },
  {
   "property": "C42",
   "status": "proved",
   "theorems": [
    "Dnssec.Props.C42_at_most_ten_queries",
    "Dnssec.Props.C42_awaits_at_most_ten",
    "Dnssec.Props.C42_driver_returns"
   ],
   "note": "For every history and, for the TCP driver, every behaviour of the peer."
  },
  {
   "property": "C43",
   "status": "proved",
   "theorems": [
    "Dnssec.Props.C43_signers_asked_once"
   ],
   "note": "For every history."
  },
  {
   "property": "C44",
   "status": "partial",
   "theorems": [
    "Dnssec.Props.C44_finish_iff",
    "Dnssec.Props.C44_proof_contents_partial",
    "Dnssec.Props.C44_proof_is_records",
    "Dnssec.Props.C44_every_history"
   ],
   "note": "Success condition proved for every history. The contents are as stated only if no response was rejected (C45_fails_after_rejected); for every history they are, exactly, what accepted responses contribute and rejected ones leave behind (C44_every_history)."
  },
  {
   "property": "C45",
   "status": "partial",
   "theorems": [
    "Dnssec.Props.C45_min_ttl_partial",
    "Dnssec.Props.C45_fails_after_rejected"
   ],
   "note": "False of the code after a rejected response (C45_fails_after_rejected). Proved for histories without; in general it is the lowest TTL of the records of accepted responses (C44_every_history)."
  },
  {
   "property": "C46",
   "status": "partial",
   "theorems": [
    "Dnssec.Props.C46_rejected_partial",
    "Dnssec.Props.C46_fails_truncated",
    "Dnssec.Props.C46_bad_header_unchanged",
    "Dnssec.Props.C46_rejected_iff",
    "Dnssec.Props.C46_one_of_three"
   ],
   "note": "False of the code: a response that fails in the middle leaves its first records in the proof (C46_fails_truncated). Proved: exactly when a response is rejected and what it leaves behind; nothing else changes, and nothing at all if the header is rejected."
  },
  {
   "property": "C47",
   "status": "proved",
   "theorems": [
    "Dnssec.Props.C47_send",
    "Dnssec.Props.C47_read_iff",
    "Dnssec.Props.C47_driver_sound",
    "Dnssec.Props.C47_driver_complete"
   ],
   "note": "Framing for every message of at most 65535 bytes, and the driver as a refinement of builder histories in both directions."
  },
  {
   "property": "C48",
   "status": "partial",
   "theorems": [
    "Dnssec.Props.C48_proof_parses_partial",
    "Dnssec.Props.C48_encodable",
    "Dnssec.Props.C48_fails_for_empty_txt",
    "Dnssec.Props.C48_fails_for_long_rrsig"
   ],
   "note": "False after a rejected response and for records that are not encodable, such as an empty TXT record (C48_fails_for_empty_txt) or an RRSIG that is too long without compression (C48_fails_for_long_rrsig). Proved for all other histories."
  },
  {
   "property": "C52",
   "status": "partial",
   "theorems": [
    "Dnssec.Props.C52_json_partial",
    "Dnssec.Props.C52_text",
    "Dnssec.Props.C52_fails_for_rrsig",
    "Dnssec.Props.C52_fails_for_backslash",
    "Dnssec.Props.C52_fails_for_backslash_other_name"
   ],
   "note": "False of the code for every RRSIG (a colon is missing, C52_fails_for_rrsig; its type is also given as \"ds\") and for names with a backslash, which is not escaped (C52_fails_for_backslash, C52_fails_for_backslash_other_name). Proved for all other records."
  },
  {
   "property": "C49",
   "status": "partial",
   "theorems": [
    "Dnssec.Props.C49_outcome",
    "Dnssec.Props.C49_exactly",
    "Dnssec.Props.C49_completed",
    "Dnssec.Props.C49_segmentation_partial",
    "Dnssec.Props.C49_fails_for_other_bytes",
    "Dnssec.Props.C49_no_panic"
   ],
   "note": "False of the code when bytes that are not UTF-8 follow the line: the whole buffer has to be UTF-8, and what is in it depends on the segmentation (C49_fails_for_other_bytes). Proved: the outcome for every segmentation, exactly; independence if what follows the line is ASCII; no panics."
  },
  {
   "property": "C50",
   "status": "proved",
   "theorems": [
    "Dnssec.Props.C50_response",
    "Dnssec.Props.C50_silent_iff"
   ],
   "note": "For every sequence of reads and every resolver. Writes that fail are the subject of C88."
  },
  {
   "property": "C51",
   "status": "partial",
   "theorems": [
    "Dnssec.Props.C51_asked_iff",
    "Dnssec.Props.C51_dispatch_partial",
    "Dnssec.Props.C51_fails_for_other_bytes",
    "Dnssec.Props.C51_no_other_query"
   ],
   "note": "False of the code when bytes that are not UTF-8 arrive together with the request line (C51_fails_for_other_bytes). Proved: exactly when what is asked, for everything a client can send and every segmentation (C51_asked_iff), and that nothing else is ever asked."
  },
  {
   "property": "C53",
   "status": "proved",
   "theorems": [
    "Dnssec.Props.C53_queue",
    "Dnssec.Props.C53_exhausted",
    "Dnssec.Props.C53_malformed",
    "Dnssec.Props.C53_proof"
   ],
   "note": "For every history of calls."
  },
  {
   "property": "C57",
   "status": "partial",
   "theorems": [
    "Dnssec.Props.C57_same_responses_partial",
    "Dnssec.Props.C57_fails_for_largest"
   ],
   "note": "False of the code for responses of exactly 65535 bytes, which are dropped (C57_fails_for_largest). Proved for shorter ones."
  },
  {
   "property": "C58",
   "status": "partial",
   "theorems": [
    "Dnssec.Props.C58_json_partial"
   ],
   "note": "Proved whenever the function returns, except for names with a backslash. It does not always return: see C06 and C31."
  },
  {
   "property": "C59",
   "status": "proved",
   "theorems": [
    "Dnssec.Props.C59_record_iff",
    "Dnssec.Props.C59_other_class",
    "Dnssec.Props.C59_unknown_type",
    "Dnssec.Props.C59_truncated",
    "Dnssec.Props.C59_prefix"
   ],
   "note": "For every byte string, build and position; names, RDATA and records are specified by inductive relations in Spec/Wire."
  },
  {
   "property": "C60",
   "status": "partial",
   "theorems": [
    "Dnssec.Props.C60_write_partial",
    "Dnssec.Props.C60_type_numbers",
    "Dnssec.Props.C60_integers",
    "Dnssec.Props.C60_write_injective_partial"
   ],
   "note": "False for TXT records with empty data (C05_fails_for_empty_txt). Proved for all other records; different records being written differently is proved for encodable ones."
  },
  {
   "property": "C61",
   "status": "partial",
   "theorems": [
    "Dnssec.Props.C61_rdata_preserved_iff",
    "Dnssec.Props.C61_record_preserved_iff_partial",
    "Dnssec.Props.C61_fails_split_txt",
    "Dnssec.Props.C61_fails_capital_next_name"
   ],
   "note": "False of the code: the strings of a TXT record are joined and cut again at 255 bytes, so the good signature of a record with strings a, b is rejected (C61_fails_split_txt); likewise an NSEC record whose next name has capital letters (C61_fails_capital_next_name). Proved: exactly which RDATA and records are preserved."
  },
  {
   "property": "C62",
   "status": "proved",
   "theorems": [
    "Dnssec.Props.C62_root_of_trust"
   ],
   "note": "For every input and every behaviour of the cryptographic library."
  },
  {
   "property": "C64",
   "status": "proved",
   "theorems": [
    "Dnssec.Props.C64_end_to_end",
    "Dnssec.Props.C64_complete"
   ],
   "note": "For every byte string; composition of C59, C21/C27 and C33."
  },
  {
   "property": "C65",
   "status": "proved",
   "theorems": [
    "Dnssec.Props.C65_one_check_per_call",
    "Dnssec.Props.C65_one_check_per_rrsig"
   ],
   "note": "Stated extensionally: the answers to one question per RRSIG determine the result. (How often the question is asked again when a zone is visited several times is C55.)"
  },
  {
   "property": "C66",
   "status": "partial",
   "theorems": [
    "Dnssec.Props.C66_signer_partial",
    "Dnssec.Props.C66_fails_foreign_signer"
   ],
   "note": "False of the code for signatures over key sets, whose signer name is not looked at (C66_fails_foreign_signer). Proved for all other signatures."
  },
  {
   "property": "C67",
   "status": "partial",
   "theorems": [
    "Dnssec.Props.C67_build_then_verify_partial",
    "Dnssec.Props.C67_driver_partial",
    "Dnssec.Props.C67_verifies_iff_partial",
    "Dnssec.Props.C67_single_signer",
    "Dnssec.Props.C67_fails_in_root_zone",
    "Dnssec.Props.C67_fails_for_zone_signed_keys",
    "Dnssec.Props.C67_fails_for_five_zones",
    "Dnssec.Props.C67_fails_for_dnskey",
    "Dnssec.Props.C67_fails_for_ds"
   ],
   "note": "The documented guarantee of ProofBuilder::new is false of the code for answers signed by the root zone itself (verification does not return), for more than four zones below the root (no proof), for the types DNSKEY and DS, and for zones that sign their key set with a key besides the one the DS record is for (rejected if the resolver returns that signature first). Proved exactly when the proof verifies, for every order of responses and for the stream driver, for answers of all other types that depend on one to four zones: if and only if in each response with a key set the signatures by keys the DS records are for come first (always so if there are no others), and it is rejected as invalid otherwise; any number of signatures and keys per set, some of them of unknown algorithms; the answer may contain records without signatures such as synthesized CNAMEs."
  },
  {
   "property": "C63",
   "status": "partial",
   "theorems": [
    "Dnssec.Props.C63_course",
    "Dnssec.Props.C63_at_most_ten_requests",
    "Dnssec.Props.C63_settles",
    "Dnssec.Props.C63_query_recoverable",
    "Dnssec.Props.C63_authentic_partial",
    "Dnssec.Props.C63_honest_partial",
    "Dnssec.Props.C63_fails_for_other_domain",
    "Dnssec.Props.C63_fails_for_exception_text"
   ],
   "note": "False of the code in that the records may be of another domain and type (resolve_name is not called) and in that exception texts are not escaped in the error object; the promise may also stay unsettled where verification does not return (C31). Proved: the exact course of requests, at most ten requests, authenticity of all records returned, and the exact result with an honest resolver (as far as C67 holds, names without backslashes)."
  },
  {
   "property": "C68",
   "status": "partial",
   "theorems": [
    "Dnssec.Props.C68_release_never_panics",
    "Dnssec.Props.C68_debug_as_release_partial",
    "Dnssec.Props.C68_parsed_partial",
    "Dnssec.Props.C68_parsed_records_written",
    "Dnssec.Props.C68_write_partial",
    "Dnssec.Props.C68_key_tag",
    "Dnssec.Props.C68_fails_for_255_labels",
    "Dnssec.Props.C68_fails_for_long_signature",
    "Dnssec.Props.C68_fails_for_long_salt"
   ],
   "note": "False of the code in debug builds: an RRSIG claiming 255 labels over a record set that is not in the proof overflows (C68_fails_for_255_labels), and so does writing an RRSIG whose data is longer than 65535 bytes (C68_fails_for_long_signature) and verifying one with such data (C68_fails_for_long_salt). Proved for release builds without condition, and for debug builds for every other input."
  },
  {
   "property": "C69",
   "status": "partial",
   "theorems": [
    "Dnssec.Props.C69_only_signed_partial",
    "Dnssec.Props.C69_fails_for_textual_suffix"
   ],
   "note": "False if only the operators of zones above the name are honest, because containment in a zone is decided on the text of names (C69_fails_for_textual_suffix). Proved for every proof, if the operators of all zones whose name is a textual suffix of the record's name are honest."
  },
  {
   "property": "C70",
   "status": "partial",
   "theorems": [
    "Dnssec.Props.C70_wildcard_denied_partial",
    "Dnssec.Props.C70_fails_for_existing_name",
    "Dnssec.Props.C70_fails_below_empty_non_terminal",
    "Dnssec.Props.C70_fails_in_every_zone",
    "Dnssec.Props.C70_nsec_denied_iff",
    "Dnssec.Props.C70_nsec3_denied_iff"
   ],
   "note": "False of the code: the NSEC record of the very name, and one whose next name is below it, are taken for denials (C70_fails_for_existing_name, C70_fails_below_empty_non_terminal). Proved: a record verified through a wildcard needs an NSEC or NSEC3 record signed by an operator that denies the next closer name in the sense of the code; and, exactly, which names and types the records of a whole zone deny in that sense: it does not depend on whether the name exists (C70_fails_in_every_zone)."
  },
  {
   "property": "C71",
   "status": "proved",
   "theorems": [
    "Dnssec.Props.C71_only_relevant_records_matter",
    "Dnssec.Props.C71_padding",
    "Dnssec.Props.C71_unsigned_records",
    "Dnssec.Props.C71_zones_without_delegation"
   ],
   "note": ""
  },
  {
   "property": "C72",
   "status": "partial",
   "theorems": [
    "Dnssec.Props.C72_same_records",
    "Dnssec.Props.C72_same_result_partial",
    "Dnssec.Props.C72_acceptance_partial",
    "Dnssec.Props.C72_fails_for_repeated_record"
   ],
   "note": "False of the code: a repeated record is put into the signed data twice, so its good signature is rejected (C72_fails_for_repeated_record). Proved: two accepted proofs with the same records, repeated or not, verify the same records, without conditions (the window as in C36); and repeated signatures do not matter for acceptance, under the conditions of C36."
  },
  {
   "property": "C73",
   "status": "partial",
   "theorems": [
    "Dnssec.Props.C73_process_response_panics_iff_partial",
    "Dnssec.Props.C73_release_no_panic_partial",
    "Dnssec.Props.C73_driver_panics_iff_partial",
    "Dnssec.Props.C73_fails_nsec_window"
   ],
   "note": "False of the code: the bitmaps of C06 also occur in responses (C73_fails_nsec_window). Proved: exactly which responses and streams panic (dbg = true stands for the assertions of the parser; the overflow checks of debug builds are C77)."
  },
  {
   "property": "C74",
   "status": "partial",
   "theorems": [
    "Dnssec.Props.C74_panics_exactly_partial",
    "Dnssec.Props.C74_answered_iff_partial",
    "Dnssec.Props.C74_panics_iff_partial",
    "Dnssec.Props.C74_response",
    "Dnssec.Props.C74_answered_partial",
    "Dnssec.Props.C74_served_proof_verifies_partial",
    "Dnssec.Props.C74_fails_nsec_window"
   ],
   "note": "False of the code: a response that panics (C73) ends the task, and the client gets no answer (C74_fails_nsec_window). Proved: exactly when this happens, what is answered otherwise, and that the proof served verifies in the worlds of C67."
  },
  {
   "property": "C75",
   "status": "partial",
   "theorems": [
    "Dnssec.Props.C75_served_as_if_alone_partial",
    "Dnssec.Props.C75_no_other_outcome",
    "Dnssec.Props.C75_keeps_accepting_partial",
    "Dnssec.Props.C75_fails_when_accept_fails"
   ],
   "note": "False of the code: when accepting a connection fails (for instance for want of file descriptors) the server panics and all clients are dropped (C75_fails_when_accept_fails). Proved for every run in which accepting does not fail; and that a client never gets anything but what it would get alone."
  },
  {
   "property": "C76",
   "status": "partial",
   "theorems": [
    "Dnssec.Props.C76_verifies_all",
    "Dnssec.Props.C76_combined_partial",
    "Dnssec.Props.C76_fails_for_concatenation",
    "Dnssec.Props.C76_fails_for_stray_signatures",
    "Dnssec.Props.C76_fails_for_unsigned_records"
   ],
   "note": "False of the code for plain concatenation, which repeats records (C76_fails_for_concatenation), and when one proof has an unsigned record in a set signed in another (C76_fails_for_unsigned_records). Proved for merges in which each signed set is as in the proofs it is from, for proofs without stray signatures (C76_fails_for_stray_signatures) that meet the conditions of C36; and, without conditions, that an accepted combination verifies everything its accepted parts verify."
  },
  {
   "property": "C77",
   "status": "partial",
   "theorems": [
    "Dnssec.Props.C77_debug_is_release_partial",
    "Dnssec.Props.C77_driver_debug_is_release_partial",
    "Dnssec.Props.C77_debug_panics_iff_partial",
    "Dnssec.Props.C77_short_messages",
    "Dnssec.Props.C77_fails_for_long_rrsig"
   ],
   "note": "False of the code: an RRSIG that exceeds 65535 octets once its signer is decompressed panics in debug builds and is accepted, and written with a wrong length, in release builds (C77_fails_for_long_rrsig, C48_fails_for_long_rrsig). Proved: a debug build that does not panic does the same, and exactly when it panics."
  },
  {
   "property": "C78",
   "status": "proved",
   "theorems": [
    "Dnssec.Props.C78_name_work",
    "Dnssec.Props.C78_stream_work",
    "Dnssec.Props.C78_response_work",
    "Dnssec.Props.C78_stream_counted",
    "Dnssec.Props.C78_response_counted",
    "Dnssec.Props.C78_growth",
    "Dnssec.Props.C78_history",
    "Dnssec.Props.C78_driver",
    "Dnssec.Props.C78_growth_attained"
   ],
   "note": "The work counted is the octets read, copied, cleared and written by the parser and the record loops; sorting the signer names is not counted. Verification is C55 and C65."
  },
  {
   "property": "C79",
   "status": "partial",
   "theorems": [
    "Dnssec.Props.C79_equal_contents",
    "Dnssec.Props.C79_iff_partial",
    "Dnssec.Props.C79_fails_on_the_heap"
   ],
   "note": "True for contents that fit in the stack part (2048 bytes), for all histories. Refuted for longer contents: bytes left on the stack count in the comparison."
  },
  {
   "property": "C80",
   "status": "partial",
   "theorems": [
    "Dnssec.Props.C80_same_result",
    "Dnssec.Props.C80_signatures_partial",
    "Dnssec.Props.C80_digests_partial",
    "Dnssec.Props.C80_hashes_partial",
    "Dnssec.Props.C80_warranted",
    "Dnssec.Props.C80_stops",
    "Dnssec.Props.C80_total_partial",
    "Dnssec.Props.C80_fails_checked_twice",
    "Dnssec.Props.C80_fails_exponential",
    "Dnssec.Props.C80_once_partial",
    "Dnssec.Props.C80_honest_partial",
    "Dnssec.Props.C80_all_listed",
    "Dnssec.Props.C80_hash_warranted"
   ],
   "note": "The bounds hold per visit of a zone, and the other two parts hold unconditionally. Refuted without the number of visits: a zone with delegations from two others is checked twice, and 2^n signature checks are possible with (n+3)^2 records. If no two zones delegate to the same one the bounds hold as stated, in particular for honest proofs."
  },
  {
   "property": "C81",
   "status": "proved",
   "theorems": [
    "Dnssec.Props.C81_hash_of_concatenation",
    "Dnssec.Props.C81_ds_digest",
    "Dnssec.Props.C81_nsec3_hash",
    "Dnssec.Props.C81_same_decisions"
   ],
   "note": "For every incremental hash engine that computes the hash of the concatenation of its input (the engines themselves are in a dependency)."
  },
  {
   "property": "C82",
   "status": "partial",
   "theorems": [
    "Dnssec.Props.C82_base32_assertions",
    "Dnssec.Props.C82_signatures",
    "Dnssec.Props.C82_signatures_iff",
    "Dnssec.Props.C82_response_partial",
    "Dnssec.Props.C82_builder_returns",
    "Dnssec.Props.C82_builder_panics_iff_partial",
    "Dnssec.Props.C82_fails_nsec_window",
    "Dnssec.Props.C82_validate_no_panic_partial",
    "Dnssec.Props.C82_fails_hangs"
   ],
   "note": "Assertions and the shortcut hold for all inputs; fuzz_proof_builder always returns; the inputs on which the targets panic are characterised. Refuted as stated: the response of C73 makes two targets panic, and the third does not return on the DNSKEY set of the root."
  },
  {
   "property": "C83",
   "status": "partial",
   "theorems": [
    "Dnssec.Props.C83_nsec_complete",
    "Dnssec.Props.C83_nsec_iff",
    "Dnssec.Props.C83_fails_after_last_name",
    "Dnssec.Props.C83_nsec3_complete",
    "Dnssec.Props.C83_nsec3_iff",
    "Dnssec.Props.C83_fails_outside_hashes",
    "Dnssec.Props.C83_accepted_partial",
    "Dnssec.Props.C83_fails_smallest_zone",
    "Dnssec.Props.C83_fails_smallest_zone_nsec3"
   ],
   "note": "False of the code: the last record of a chain, which points back to the first, never counts as a denial. So wildcards cannot be proved for any name after the last one of the zone (NSEC) or with a hash outside the zone's (NSEC3), whatever the proof contains (C83_fails_*). Proved, exactly: the names between two owners are denied, and such proofs accepted."
  },
  {
   "property": "C84",
   "status": "partial",
   "theorems": [
    "Dnssec.Props.C84_fails_for_ds",
    "Dnssec.Props.C84_fails_for_dnskey",
    "Dnssec.Props.C84_denials_partial"
   ],
   "note": "False of the code for DS and DNSKEY sets (C84_fails_*): they are accepted from wildcards without a denial, even next to a signed record that shows there is no DS set at the name. Proved: if none of those is for a wildcard, all other signatures used come with denials."
  },
  {
   "property": "C85",
   "status": "partial",
   "theorems": [
    "Dnssec.Props.C85_fails_other_question",
    "Dnssec.Props.C85_fails_for_example",
    "Dnssec.Props.C85_answers_partial"
   ],
   "note": "False of the code: responses are not compared with the question; for every pair of questions, a builder for one accepts the responses to the other (C85_fails_other_question). Proved for resolvers that answer what they are asked."
  },
  {
   "property": "C86",
   "status": "partial",
   "theorems": [
    "Dnssec.Props.C86_fails_without_sha256",
    "Dnssec.Props.C86_ignored_partial"
   ],
   "note": "False of the code: SHA-384 digests are not computed, and a DS set with one and no SHA-256 digest is always Invalid (C86_fails_without_sha256, for all inputs). Proved: beside SHA-256 DS records they make no difference."
  },
  {
   "property": "C87",
   "status": "partial",
   "theorems": [
    "Dnssec.Props.C87_fails_for_data",
    "Dnssec.Props.C87_fails_for_keys",
    "Dnssec.Props.C87_old_anchor_partial"
   ],
   "note": "False of the code: the REVOKE flag is not looked at (C87_fails_*). Proved: a DS record (or built-in anchor) for a key does not vouch for its revoked form, for all keys and hash functions."
  },
  {
   "property": "C88",
   "status": "partial",
   "theorems": [
    "Dnssec.Props.C88_complete",
    "Dnssec.Props.C88_prefix_partial",
    "Dnssec.Props.C88_fails_after_failed_write"
   ],
   "note": "False of the code: the result of writing the header is ignored, so if that fails and later writes succeed the client receives the bare proof (C88_fails_after_failed_write, for every request that is answered with a proof). Proved: complete if no write fails, an initial part if failures are permanent. write_all of tokio is modelled from its documentation."
  },
  {
   "property": "C89",
   "status": "partial",
   "theorems": [
    "Dnssec.Props.C89_sound_partial",
    "Dnssec.Props.C89_exact_partial",
    "Dnssec.Props.C89_fails_long_lifetime",
    "Dnssec.Props.C89_fails_overflow"
   ],
   "note": "False of the code: for signatures that last over 68 years, whose expiration as a serial number is in the past (C89_fails_long_lifetime), and by one second after 2106 (C89_fails_overflow). Proved for all other signatures, and exactly until 2106."
  },
  {
   "property": "C90",
   "status": "partial",
   "theorems": [
    "Dnssec.Props.C90_ttl_partial",
    "Dnssec.Props.C90_expiry_partial",
    "Dnssec.Props.C90_fails_above_original",
    "Dnssec.Props.C90_fails_expiry"
   ],
   "note": "False of the code: the TTL is the lowest one the resolver sent, so it can be above the original TTL and go beyond the expiry of the signatures (two refutations). Proved for resolvers that cap TTLs as RFC 4034 3.1.4 and RFC 4035 5.3.3 say."
  },
  {
   "property": "C91",
   "status": "partial",
   "theorems": [
    "Dnssec.Props.C91_records",
    "Dnssec.Props.C91_window_partial",
    "Dnssec.Props.C91_fails_window"
   ],
   "note": "Proved without conditions for the records. False for the validity window and TTL: of several good signatures over a key set the first one counts, so adding one can extend the window (C91_fails_window). Proved for them if the signatures over each key set have the same times."
  },
  {
   "property": "C92",
   "status": "partial",
   "theorems": [
    "Dnssec.Props.C92_labels_partial",
    "Dnssec.Props.C92_different_partial",
    "Dnssec.Props.C92_only_names_partial",
    "Dnssec.Props.C92_fails_for_dot",
    "Dnssec.Props.C92_fails_for_reserved_type",
    "Dnssec.Props.C92_fails_for_signature"
   ],
   "note": "False for labels that contain a dot: they are read as several labels (C92_fails_for_dot), even after a reserved length octet (C92_fails_for_reserved_type), so that a zone's good signature over a record with such a name is rejected (C92_fails_for_signature). Proved for all names without dots in labels."
  },
  {
   "property": "C93",
   "status": "partial",
   "theorems": [
    "Dnssec.Props.C93_wished_partial",
    "Dnssec.Props.C93_reported_partial",
    "Dnssec.Props.C93_wished_rfc_partial",
    "Dnssec.Props.C93_reported_rfc_partial",
    "Dnssec.Props.C93_fails_downgrade",
    "Dnssec.Props.C93_fails_for_data"
   ],
   "note": "Proved: UnsupportedAlgorithm implies an authenticated delegation with something unsupported in it, and zones with nothing but unsupported signatures over their keys are reported. False in the strong form: any accepted proof through a zone that has one unsupported algorithm among supported ones can be turned into UnsupportedAlgorithm without any key (C93_fails_downgrade), and records signed with unsupported algorithms only are not reported (C93_fails_for_data)."
  },
  {
   "property": "C94",
   "status": "partial",
   "theorems": [
    "Dnssec.Props.C94_published_partial",
    "Dnssec.Props.C94_textually_partial",
    "Dnssec.Props.C94_fails_for_dname",
    "Dnssec.Props.C94_fails_for_textual_suffix"
   ],
   "note": "Proved if the operators of all zones whose name is a textual suffix of a name on the way are honest and verified DNAMEs are applied only to names below their owner (C94_published_partial); without that condition with DNAMEs as the code applies them. False otherwise: even with honest operators only, a DNAME is applied to names that are not below it (C94_fails_for_dname), and the operator of oogle.com. can answer for google.com. (C94_fails_for_textual_suffix)."
  },
  {
   "property": "C95",
   "status": "partial",
   "theorems": [
    "Dnssec.Props.C95_question_answered_partial",
    "Dnssec.Props.C95_driver_partial",
    "Dnssec.Props.C95_fails_for_longer_name"
   ],
   "note": "Proved for every order of responses and for the driver, where C67 holds and no name on the way ends, as text, in the owner name of a DNAME without being below it. False otherwise: when d.c. has moved to ad.c. the address is in the proof but resolve_name returns nothing (C95_fails_for_longer_name)."
  },
  {
   "property": "C96",
   "status": "partial",
   "theorems": [
    "Dnssec.Props.C96_records_one_way",
    "Dnssec.Props.C96_names_one_way",
    "Dnssec.Props.C96_model_sorts",
    "Dnssec.Props.C96_same_or_rejected_partial",
    "Dnssec.Props.C96_same_result_partial",
    "Dnssec.Props.C96_fails_for_shared_name"
   ],
   "note": "Sorting records and names leaves no choice. Without conditions: the same result, or one build accepts and the other reports Invalid. The same result if no two zones have wildcard expansions with the same next closer name. False otherwise: the denial is looked for in the zone of the one that happens to be sorted last (C96_fails_for_shared_name)."
  },
  {
   "property": "C97",
   "status": "proved",
   "theorems": [
    "Dnssec.Props.C97_any_order",
    "Dnssec.Props.C97_succeeds_iff",
    "Dnssec.Props.C97_same_records",
    "Dnssec.Props.C97_driver"
   ],
   "note": "For every resolver whose responses depend on the query only, and every two schedules. Sessions consist of accepted responses; C97_any_order shows that no response is rejected in one order if a proof results in another."
  },
  {
   "property": "C98",
   "status": "partial",
   "theorems": [
    "Dnssec.Props.C98_same_data_partial",
    "Dnssec.Props.C98_same_records_partial",
    "Dnssec.Props.C98_without_wildcards_partial",
    "Dnssec.Props.C98_same_answers_partial",
    "Dnssec.Props.C98_fails_for_wildcards"
   ],
   "note": "False of the code where a wildcard covers a name with records of its own: both answers can be proved at the same time (C98_fails_for_wildcards). Proved if operators publish one record set at a time for each name and type, counting wildcards; for the operators of all zones whose name is a textual suffix (see C69)."
  },
  {
   "property": "C99",
   "status": "proved",
   "theorems": [
    "Dnssec.Props.C99_parse",
    "Dnssec.Props.C99_verify"
   ],
   "note": "Full equality of the results, including rejections and panics."
  },
  {
   "property": "C100",
   "status": "partial",
   "theorems": [
    "Dnssec.Props.C100_fresh",
    "Dnssec.Props.C100_window_partial",
    "Dnssec.Props.C100_fails_expired"
   ],
   "note": "False of the code: neither lookup_doh nor verify_byte_stream looks at the clock, so records with signatures that expired long ago are returned (C100_fails_expired). Proved: the window returned is one in which all signatures are valid, and contains every time at which all signatures of a correctly signed world are valid."
  },
  {
   "property": "C101",
   "status": "partial",
   "theorems": [
    "Dnssec.Props.C101_ancestors_partial",
    "Dnssec.Props.C101_fails_denies_everything",
    "Dnssec.Props.C101_fails_in_every_child",
    "Dnssec.Props.C101_fails_nsec3"
   ],
   "note": "False of the code at the delegation of the zone itself: the parent's NSEC record there denies every name and type in the child (C101_fails_denies_everything), and is accepted as denial for wildcard expansions in the child (C101_fails_in_every_child); and NSEC3 records of the parent are too if their hash ends in the child's label (C101_fails_nsec3). Proved: denials do not rest on records with owners strictly above the zone."
  },
  {
   "property": "C102",
   "status": "partial",
   "theorems": [
    "Dnssec.Props.C102_fewer_signatures",
    "Dnssec.Props.C102_alone_partial",
    "Dnssec.Props.C102_each_alone_partial",
    "Dnssec.Props.C102_fails_for_shared_name"
   ],
   "note": "False of the code where two zones need the denial of the same name: the address verified there has no proof of its own (C102_fails_for_shared_name). Proved: what is verified without some of the signatures and for how long; every record that is not an expansion of a wildcard has a proof of its own; so has every record if no two zones need the denial of the same name and no zone uses more than two sets of NSEC3 parameters."
  },
  {
   "property": "C103",
   "status": "partial",
   "theorems": [
    "Dnssec.Props.C103_rollovers_validate",
    "Dnssec.Props.C103_stage_partial",
    "Dnssec.Props.C103_pre_publish_double_ds",
    "Dnssec.Props.C103_accepted_partial",
    "Dnssec.Props.C103_fails_unpublished_signer",
    "Dnssec.Props.C103_fails_double_signature",
    "Dnssec.Props.C103_first_signature_iff",
    "Dnssec.Props.C103_fails_double_ksk"
   ],
   "note": "False of the code, which rejects a proof because of one signature by a key that is not in the key set, or if the first signature over the key set is by a key without a DS record, where RFC 4035 asks for one good signature. So Double-KSK rollovers can fail depending on the order of the signatures (C103_fails_double_ksk), Double-Signature rollovers while caches expire, and algorithm rollovers at two stages (C103_fails_unpublished_signer, C103_fails_double_signature). Proved: Pre-Publish and Double-DS rollovers, at all stages and with caches, and the exact condition for key sets."
  },
  {
   "property": "C104",
   "status": "partial",
   "theorems": [
    "Dnssec.Props.C104_built_partial",
    "Dnssec.Props.C104_accepted_iff_partial",
    "Dnssec.Props.C104_accepted_partial",
    "Dnssec.Props.C104_fails_length"
   ],
   "note": "The length is not limited: finish_proof returns proofs of over a million octets, made from a response of 28272 (C104_fails_length). Proved otherwise, for at most four zones below the root (with more there is no proof, C67); acceptance for any number of zones but none, exactly when signatures by keys in the DS sets come first."
  },
  {
   "property": "C105",
   "status": "partial",
   "theorems": [
    "Dnssec.Props.C105_sound",
    "Dnssec.Props.C105_accept_iff_partial",
    "Dnssec.Props.C105_first_only_iff",
    "Dnssec.Props.C105_fails_in_every_zone",
    "Dnssec.Props.C105_key_set_partial",
    "Dnssec.Props.C105_collisions_exist",
    "Dnssec.Props.C105_fails_for_order"
   ],
   "note": "False of the code, which tries the first matching key only (so that work is bounded, C65): in every zone in which two keys match the same signatures, every proof with a signature by the second is rejected (C105_fails_in_every_zone, C105_fails_for_order); anyone who may add keys to a zone can make such a key (C105_collisions_exist). Proved: the property if at most one key matches; that only the first key counts; and that for key sets only keys with DS records count."
  },
  {
   "property": "C106",
   "status": "partial",
   "theorems": [
    "Dnssec.Props.C106_trusted_iff_partial",
    "Dnssec.Props.C106_published_trusted_partial",
    "Dnssec.Props.C106_root_established_partial",
    "Dnssec.Props.C106_fails_successor",
    "Dnssec.Props.C106_fails_revoked_first",
    "Dnssec.Props.C106_fails_retired",
    "Dnssec.Props.C106_fails_revoking"
   ],
   "note": "False of the code: the key of 2010, whose validity ended in 2019, is trusted (C106_fails_retired); that of 2024 is not, so that every proof is rejected once the root key set is signed with it alone (C106_fails_successor); and while a key is revoked, proofs with the signature by the revoked key first are rejected (C106_fails_revoked_first, C106_fails_revoking). Proved: the trusted keys are the published ones from 2017-02-02 until 2019-01-11, the published ones are trusted until 2024-07-18, and the root is then established whatever the order of the signatures."
  },
  {
   "property": "C107",
   "status": "partial",
   "theorems": [
    "Dnssec.Props.C107_signed_owner",
    "Dnssec.Props.C107_needs_denial_of_itself",
    "Dnssec.Props.C107_fails_without_denial",
    "Dnssec.Props.C107_accepted_partial",
    "Dnssec.Props.C107_fails"
   ],
   "note": "False of the code: the asterisk is not counted in the labels of the signature but is in those of the name, so the records count as expanded, and a denial of the name they are at is required: without one every such proof is rejected (C107_needs_denial_of_itself, C107_fails_without_denial, C107_fails). Proved: the signature is over the name as presented, and proofs that also contain the NSEC record of the wildcard's own name (which the code takes as the denial) are accepted."
  },
  {
   "property": "C108",
   "status": "proved",
   "theorems": [
    "Dnssec.Props.C108_only_records",
    "Dnssec.Props.C108_rest_ignored",
    "Dnssec.Props.C108_uncompressed"
   ],
   "note": "For every builder and response. The plain message is given for records that can be written (C03)."
  },
  {
   "property": "C109",
   "status": "partial",
   "theorems": [
    "Dnssec.Props.C109_additional_partial",
    "Dnssec.Props.C109_fails_in_every_proof",
    "Dnssec.Props.C109_fails_in_every_response",
    "Dnssec.Props.C109_fails_for_signatures",
    "Dnssec.Props.C109_fails_alias_without_records"
   ],
   "note": "False of the code: every proof with such a record is unreadable, every response with one in the answer or authority section is rejected, and every proof with a signature over one by a zone it gets to is rejected (C109_fails_in_every_proof, C109_fails_in_every_response, C109_fails_for_signatures); also responses of correctly functioning resolvers (C109_fails_alias_without_records). Proved for the additional section."
  },
  {
   "property": "C110",
   "status": "proved",
   "theorems": [
    "Dnssec.Props.C110_goes_on",
    "Dnssec.Props.C110_sending_writes",
    "Dnssec.Props.C110_ends",
    "Dnssec.Props.C110_result",
    "Dnssec.Props.C110_returns",
    "Dnssec.Props.C110_room_needed"
   ],
   "note": "For every execution of the driver as a process, the connection and a resolver. Some room is needed (C110_room_needed has an execution that deadlocks with 41 and 512 bytes). Failures of the connection are in C47 and C73."
  },
  {
   "property": "C111",
   "status": "partial",
   "theorems": [
    "Dnssec.Props.C111_waits_partial",
    "Dnssec.Props.C111_fails_silent_resolver"
   ],
   "note": "False of the code: there is no timeout, so that with a resolver that never answers the driver waits forever (C111_fails_silent_resolver). Proved: it waits only when it has written all its queries, has read all that has arrived, and a response is due."
  },
  {
   "property": "C112",
   "status": "partial",
   "theorems": [
    "Dnssec.Props.C112_per_client_partial",
    "Dnssec.Props.C112_request_partial",
    "Dnssec.Props.C112_total_partial",
    "Dnssec.Props.C112_slow_readers_partial",
    "Dnssec.Props.C112_connected_partial",
    "Dnssec.Props.C112_given_back",
    "Dnssec.Props.C112_fails_idle_clients",
    "Dnssec.Props.C112_fails_slow_readers"
   ],
   "note": "False of the code for all clients together: every connection is accepted and there is no timeout, so that idle clients and clients that do not read add up (C112_fails_idle_clients, C112_fails_slow_readers). Proved: at most 25 million octets for each client that is connected, at every moment of every run and however slowly it reads, fewer than 4096 while the request is read, and nothing afterwards."
  },
  {
   "property": "C113",
   "status": "partial",
   "theorems": [
    "Dnssec.Props.C113_sets_are_complete_partial",
    "Dnssec.Props.C113_fails_in_every_proof",
    "Dnssec.Props.C113_fails_for_tlsa"
   ],
   "note": "False of the code, which does not return denials: from every proof of two record sets one can be left out, what remains is accepted and resolve_name returns no such records (C113_fails_in_every_proof; C113_fails_for_tlsa with honest operators only). Proved: if one record of a set is returned, all are that the operators stand by."
  },
  {
   "property": "C114",
   "status": "partial",
   "theorems": [
    "Dnssec.Props.C114_fails_exponential",
    "Dnssec.Props.C114_few_partial",
    "Dnssec.Props.C114_finite_partial"
   ],
   "note": "False of the code: n DNAMEs can count in binary. For every n up to 126 there is an accepted stream of 2n+8 records, of an ordinary zone, in which the lookup of a name follows exactly 2^n-1 aliases and then returns an address (C114_fails_exponential). Proved: if DNAMEs do not lead to DNAMEs, at most two per CNAME and one more; in any case finitely many when it returns (fewer than there are names)."
  },
  {
   "property": "C115",
   "status": "proved",
   "theorems": [
    "Dnssec.Props.C115_forgeries_expire",
    "Dnssec.Props.C115_until_then"
   ],
   "note": "For all proofs and any set of stolen keys; the bound on expires is exact (C115_until_then: a forgery is accepted until the DS set expires)."
  },
  {
   "property": "C116",
   "status": "partial",
   "theorems": [
    "Dnssec.Props.C116_same_answers_partial",
    "Dnssec.Props.C116_fails_for_two_dnames"
   ],
   "note": "False of the code, even in an ordinary zone: with DNAMEs at d.c. and ad.c., neither below the other, x.ad.c. resolves to one or the other target depending on the order (C116_fails_for_two_dnames), because suffixes are compared as text and the first match is taken, not the longest. Proved if there is at most one way on from each name visited."
  },
  {
   "property": "C117",
   "status": "partial",
   "theorems": [
    "Dnssec.Props.C117_secure_partial",
    "Dnssec.Props.C117_complete",
    "Dnssec.Props.C117_exact_partial",
    "Dnssec.Props.C117_fails_for_textual_suffix",
    "Dnssec.Props.C117_fails_foreign_signer"
   ],
   "note": "RFC 4035 section 5 is one inductive definition (Spec/Secure.lean), independent of how the code works. Completeness holds for every accepted input. Soundness is false of the code (C117_fails_*: a signer whose name is only textually the end of the owner's, a key set signed in another name; and C29, C84, C89); proved for proofs in which none of the known deviations occurs (Conventional, eight conditions that can be read off the records)."
  },
  {
   "property": "C118",
   "status": "partial",
   "theorems": [
    "Dnssec.Props.C118_signer_partial",
    "Dnssec.Props.C118_wildcards_apart_partial",
    "Dnssec.Props.C118_without_wildcards_partial",
    "Dnssec.Props.C118_fails_through_wildcards",
    "Dnssec.Props.C118_fails_below_delegation"
   ],
   "note": "False of the code: the records of a wildcard of the parent are returned for names in a child zone, because the NSEC record at the delegation is taken for a denial (C118_fails_through_wildcards, with honest operators); and the code never compares signers with delegations (C118_fails_below_delegation). Proved for all records if no operator delegates names below the parent of one of their wildcards, and in any case for records that do not come from wildcards."
  },
  {
   "property": "C119",
   "status": "partial",
   "theorems": [
    "Dnssec.Props.C119_states",
    "Dnssec.Props.C119_records_and_zones",
    "Dnssec.Props.C119_each_zone",
    "Dnssec.Props.C119_needs_partial",
    "Dnssec.Props.C119_fails_unbounded",
    "Dnssec.Props.C119_fails_exponential"
   ],
   "note": "False of the code: entries are added to the list of denials to be looked for each time a zone is looked at. A proof of four records for which verification does not end makes it grow without bound (C119_fails_unbounded), and with n + 1 zones and about n^2/2 records it reaches 2^(n-1) entries before verification ends (C119_fails_exponential). Proved: always for records and zones (C119_records_and_zones), and for the denials if each zone has one parent, the root delegates and no zone delegates to itself (C119_needs_partial). Temporary vectors of one iteration (keys of the zone, records of the set) are not counted; each is a subset of the input."
  },
  {
   "property": "C120",
   "status": "partial",
   "theorems": [
    "Dnssec.Props.C120_zones_of_the_answer_partial",
    "Dnssec.Props.C120_named_in_responses_partial",
    "Dnssec.Props.C120_doh_partial",
    "Dnssec.Props.C120_fails_any_names"
   ],
   "note": "False of the code: the signer names in a response are not compared with the question or with the owner names of the records; a single response makes a builder ask for the keys and DS sets of any four names (C120_fails_any_names). Proved: with a resolver that answers from correctly signed zones, all queries are the question or for zones that names of the answer are in; with any resolver, all names asked for have been named as a signer in an accepted response, and likewise all URLs requested by the client of DNS over HTTPS."
  },
  {
   "property": "C121",
   "status": "partial",
   "theorems": [
    "Dnssec.Props.C121_sockets",
    "Dnssec.Props.C121_given_back",
    "Dnssec.Props.C121_stays_up_partial",
    "Dnssec.Props.C121_half_is_needed",
    "Dnssec.Props.C121_fails_silent_clients"
   ],
   "note": "False of the code: there is no timeout and no limit on connections, and when accepting fails the server panics, so that silent clients, as many as there are descriptors, end it (C121_fails_silent_clients). Proved: at most two sockets for each client that is connected, none left open afterwards (C121_sockets, C121_given_back), and the server stays up as long as fewer clients than half the number of descriptors are connected at the same time (C121_stays_up_partial); half is the best that can be said (C121_half_is_needed)."
  },
  {
   "property": "C122",
   "status": "proved",
   "theorems": [
    "Dnssec.Props.C122_delivered",
    "Dnssec.Props.C122_complete",
    "Dnssec.Props.C122_initial_part",
    "Dnssec.Props.C122_eventually"
   ],
   "note": "For runs in which accepting does not fail (otherwise: C75, C121). A write that blocks is a task that is not woken. The two write_all calls of a proof are one buffer here; a first one that fails with a second that succeeds is C88."
  }
 ]
}
