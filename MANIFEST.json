{
 "claims": [
  {
   "property": "C01",
   "status": "proved",
   "theorems": [
    "SV.C01_standard_decoder",
    "SV.C01_resume",
    "SV.C01_library_reader"
   ],
   "note": ""
  },
  {
   "property": "C02",
   "status": "proved",
   "theorems": [
    "SV.C02_written_bytes",
    "SV.C02_sei",
    "SV.C02_needs_epb"
   ],
   "note": "Whole SEI: the patterns occur only inside the leading start code. Without emulation prevention the claim fails (C02_needs_epb)."
  },
  {
   "property": "C03",
   "status": "partial",
   "theorems": [
    "SV.C03_partial",
    "SV.C03_overflow",
    "SV.C03_statement_false"
   ],
   "note": "False in general: C03_overflow/C03_statement_false give a session (2000 zero bytes of user data) whose SEI is written beyond its allocation. Proved for SEIs without emulation prevention and when at most 3/5 of the TLV bytes are zero."
  },
  {
   "property": "C04",
   "status": "proved",
   "theorems": [
    "SV.C04_big_endian",
    "SV.C04_round_trip",
    "SV.C04_through_epb"
   ],
   "note": ""
  },
  {
   "property": "C05",
   "status": "proved",
   "theorems": [
    "SV.C05_expansion",
    "SV.C05_size_exact",
    "SV.C05_size_epb",
    "SV.C05_size_stable"
   ],
   "note": ""
  },
  {
   "property": "C06",
   "status": "proved",
   "theorems": [
    "SV.C06_general"
   ],
   "note": ""
  },
  {
   "property": "C07",
   "status": "proved",
   "theorems": [
    "SV.C07_product",
    "SV.C07_reported"
   ],
   "note": ""
  },
  {
   "property": "C08",
   "status": "partial",
   "theorems": [
    "SV.C08_arbitrary_partial",
    "SV.C08_too_long_fails"
   ],
   "note": "Round trip for 1 to 65534 bytes; false for 65535 bytes (C08_too_long_fails)."
  },
  {
   "property": "C09",
   "status": "proved",
   "theorems": [
    "SV.C09_public_key",
    "SV.C09_hash_list",
    "SV.C09_signature",
    "SV.C09_crypto_info"
   ],
   "note": ""
  },
  {
   "property": "C10",
   "status": "proved",
   "theorems": [
    "SV.C10_sequence",
    "SV.C10_encoder",
    "SV.C10_sei_content"
   ],
   "note": ""
  },
  {
   "property": "C11",
   "status": "partial",
   "theorems": [
    "SV.C11_null_decoder",
    "SV.C11_overread",
    "SV.C11_buffer_overflow",
    "SV.C11_unterminated_string",
    "SV.C11_table_index",
    "SV.C11_statement_false",
    "SV.C11_well_framed_partial",
    "SV.C11_own_output",
    "SV.C11_signature_in_tag"
   ],
   "note": "False in general (witnesses); holds for well framed and well sized data."
  },
  {
   "property": "C12",
   "status": "partial",
   "theorems": [
    "SV.C12_validator",
    "SV.C12_same_bytes_partial",
    "SV.C12_escaped",
    "SV.C12_statement_false"
   ],
   "note": "False in general: the search for the signature tag is bounded by the size without emulation prevention (C12_statement_false, 300 zeros of user data). C12_validator says exactly what is hashed; proved equal when fewer emulation prevention bytes than the signature TLV size precede the signature."
  },
  {
   "property": "C13",
   "status": "proved",
   "theorems": [
    "SV.C13_parsed",
    "SV.C13_escaped",
    "SV.C13_content"
   ],
   "note": "C13_parsed for all options; C13_content connects it with TLV decoding for sessions without golden SEI and vendor data."
  },
  {
   "property": "C14",
   "status": "proved",
   "theorems": [
    "SV.C14_start_code",
    "SV.C14_short_body"
   ],
   "note": "For bodies of at least four bytes (C14_short_body: shorter ones are over-read)."
  },
  {
   "property": "C15",
   "status": "proved",
   "theorems": [
    "SV.C15_trailing_zeros",
    "SV.C15_hashed_bytes"
   ],
   "note": ""
  },
  {
   "property": "C16",
   "status": "proved",
   "theorems": [
    "SV.C16_signed_types",
    "SV.C16_validated_types",
    "SV.C16_unprotected_slices",
    "SV.C16_legal",
    "SV.C16_illegal_headers"
   ],
   "note": ""
  },
  {
   "property": "C17",
   "status": "partial",
   "theorems": [
    "SV.C17_overreads",
    "SV.C17_statement_false",
    "SV.C17_long_enough_partial"
   ],
   "note": "False in general: C17_overreads. Proved for NAL units that are as long as they announce."
  },
  {
   "property": "C18",
   "status": "proved",
   "theorems": [
    "SV.C18_strings"
   ],
   "note": "For every history of calls the two strings of a report are the letter and status rows of one list of columns. The columns with a NAL unit are exactly those that are still to be reported plus the one just added, in order; the columns of missing NAL units are blank. Hypothesis Sane excludes SEIs whose size field is smaller than the UUID, for which the size of the payload wraps around and the copy of the NAL unit fails."
  },
  {
   "property": "C19",
   "status": "proved",
   "theorems": [
    "SV.C19_links",
    "SV.C19_effect",
    "SV.C19_unique"
   ],
   "note": ""
  },
  {
   "property": "C20",
   "status": "partial",
   "theorems": [
    "SV.C20_counters",
    "SV.C20_held",
    "SV.C20_conserved_partial",
    "SV.C20_unsigned_start_false"
   ],
   "note": "C20_counters says for every history what received, validated and pending count, in terms of what the user sees. C20_held is the conservation law for the list. received = validated + pending is false as stated (C20_unsigned_start_false: leading NAL units that are not pending are dropped by a NOT SIGNED report without being counted); C20_conserved_partial proves it under the conditions that no NOT SIGNED report drops NAL units and no missing ones are held."
  },
  {
   "property": "C21",
   "status": "proved",
   "theorems": [
    "SV.C21_clean_up"
   ],
   "note": ""
  },
  {
   "property": "C22",
   "status": "partial",
   "theorems": [
    "SV.C22_statement_false",
    "SV.C22_sticks_partial",
    "SV.C22_worst_partial"
   ],
   "note": "False in general (C22_statement_false): SIGNATURE PRESENT followed by OK overwrites NOT OK. Holds while no later report is NOT SIGNED or SIGNATURE PRESENT."
  },
  {
   "property": "C23",
   "status": "proved",
   "theorems": [
    "SV.C23_key_changed",
    "SV.C23_key_not_ok"
   ],
   "note": ""
  },
  {
   "property": "C24",
   "status": "proved",
   "theorems": [
    "SV.C24_timestamps"
   ],
   "note": ""
  },
  {
   "property": "C25",
   "status": "partial",
   "theorems": [
    "SV.C25_session_never",
    "SV.C25_never_mismatch",
    "SV.C25_mismatch_statement_false",
    "SV.C25_order",
    "SV.C25_antisymm",
    "SV.C25_trans",
    "SV.C25_malformed",
    "SV.C25_null",
    "SV.C25_overflow"
   ],
   "note": "Order, antisymmetry, transitivity and errors proved. The last clause is false: the local report never holds the version of the library, so VERSION MISMATCH is never reported (C25_never_mismatch, C25_mismatch_statement_false). sscanf on numbers that do not fit an int is undefined (C25_overflow). C25_session_never: in no history of calls, in the newer or the older format, does a report that is handed out or fetched say 'version mismatch'; futureStream_ok: a stream signed with version 9.0.0 is reported as OK, with both versions in the report."
  },
  {
   "property": "C26",
   "status": "proved",
   "theorems": [
    "SV.C26_fifo",
    "SV.C26_order"
   ],
   "note": ""
  },
  {
   "property": "C27",
   "status": "partial",
   "theorems": [
    "SV.C27_own_signatures_partial",
    "SV.C27_statement_false"
   ],
   "note": "False when the 32-bit session id wraps around while a hash is being signed (C27_statement_false: a schedule with 2^32 set ups). Proved for every schedule with fewer than 2^32 set ups."
  },
  {
   "property": "C28",
   "status": "partial",
   "theorems": [
    "SV.C28_central",
    "SV.C28_central_one_size",
    "SV.C28_central_two_sizes",
    "SV.C28_local_statement_false",
    "SV.C28_local_partial"
   ],
   "note": "Central thread: proved for every schedule (C28_central); with hashes of different sizes an assertion fails (C28_central_two_sizes). Thread per session: false (C28_local_statement_false: in[60] is read once all 60 elements have been used); proved when fewer than 59 hashes wait at each submission."
  },
  {
   "property": "C29",
   "status": "proved",
   "theorems": [
    "SV.C29_ids_unique",
    "SV.C29_setup"
   ],
   "note": ""
  },
  {
   "property": "C30",
   "status": "partial",
   "theorems": [
    "SV.C30_partial",
    "SV.C30_empty_signature",
    "SV.C30_statement_false"
   ],
   "note": "Proved for plugins that deliver no more signatures than they accepted hashes and no empty signature. Without this it is false (C30_statement_false): an empty signature leaves a pointer to freed memory in the buffer."
  },
  {
   "property": "C31",
   "status": "proved",
   "theorems": [
    "SV.C31_order",
    "SV.C31_pending"
   ],
   "note": ""
  },
  {
   "property": "C32",
   "status": "proved",
   "theorems": [
    "SV.C32_own_signature"
   ],
   "note": ""
  },
  {
   "property": "C33",
   "status": "proved",
   "theorems": [
    "SV.C33_only_first_slice",
    "SV.C33_nothing_lost"
   ],
   "note": ""
  },
  {
   "property": "C34",
   "status": "proved",
   "theorems": [
    "SV.C34_gop_hash"
   ],
   "note": "For undisturbed sessions: all NAL units are accepted, the plugin accepts every hash, no golden SEI, no end of stream, no change of hash algorithm or key while running. Any number of GOPs of any length and any list size."
  },
  {
   "property": "C35",
   "status": "proved",
   "theorems": [
    "SV.C35_linked"
   ],
   "note": "For undisturbed sessions (see C34)."
  },
  {
   "property": "C36",
   "status": "partial",
   "theorems": [
    "SV.C36_any_history_partial",
    "SV.C36_statement_false",
    "SV.C36_counter",
    "SV.C36_timestamp"
   ],
   "note": "C36_counter: as read by a receiver, undisturbed sessions without golden SEIs. C36_any_history_partial covers every sequence of calls (end of stream, golden SEIs, refused calls included) in which no SEI generation is broken off half way; golden SEIs take no counter value. C36_statement_false shows the gap: a plugin that refuses to sign uses up a counter value without an SEI."
  },
  {
   "property": "C37",
   "status": "proved",
   "theorems": [
    "SV.C37_parts"
   ],
   "note": "All NAL units except SEIs. The first part has to contain start code, header and one byte of payload; the last part must not consist of zero bytes only (trailing zeros are stripped per part by the code). The state after the parts is the state after the whole NAL unit, apart from scratch data that every new NAL unit overwrites."
  },
  {
   "property": "C38",
   "status": "proved",
   "theorems": [
    "SV.C38_all_or_nothing",
    "SV.C38_present"
   ],
   "note": "For undisturbed sessions (see C34)."
  },
  {
   "property": "C39",
   "status": "partial",
   "theorems": [
    "SV.C39_recurrent_partial",
    "SV.C39_statement_false"
   ],
   "note": "C39_recurrent_partial: exact, in terms of what the library counts as a frame, in undisturbed sessions (no golden SEI, no end of stream, every NAL unit accepted). C39_statement_false: the library also counts parameter sets and other NAL units with the first bit after the header set, so that with frames in the usual sense the statement fails."
  },
  {
   "property": "C40",
   "status": "proved",
   "theorems": [
    "SV.C40_public_key",
    "SV.C40_public_key_accepted",
    "SV.C40_frozen",
    "SV.C40_range",
    "SV.C40_no_division"
   ],
   "note": "Signing: C40_frozen, C40_range (over histories), C40_no_division. Validation: C40_public_key."
  },
  {
   "property": "C41",
   "status": "partial",
   "theorems": [
    "SV.C41_backed_partial",
    "SV.C41_verify_error_false",
    "SV.C41_first_sei_false"
   ],
   "note": "False of the code, three witnesses: (1) a signature on which EVP_PKEY_verify fails with an error gives verdict OK (the GOP's NAL units are marked N, the SEI E, and neither is counted); (2) a SEI with a wrong signature before which no frame is pending gives verdict OK; (3) the list of hashes may come from a SEI that was never verified (C42_injected_list_false). What holds (C41_backed_partial): if EVP_PKEY_verify gives no error, then for every validation of a call reporting OK or OK WITH MISSING INFO (except a first one that is taken back) the signature holds with a public key if anything is compared with the SEI, and the hashes of all NAL units compared are those behind the decoded GOP hash or occur in order in the decoded list of hashes; all of them are marked valid. Missing: that the decoded list of hashes is from this SEI (false of the code)."
  },
  {
   "property": "C42",
   "status": "partial",
   "theorems": [
    "SV.C42_unsigned_tail_false",
    "SV.C42_replay_false",
    "SV.C42_injected_list_false",
    "SV.C42_content_partial",
    "SV.C42_signed_partial"
   ],
   "note": "False of the code as it stands, three witnesses: TLVs behind the signature are not signed but decoded; the list of hashes of an older SEI is kept, so that an old GOP can be replayed; a list of hashes injected with an unsigned SEI is used. Proved in part (C42_content_partial): if the decoded data is what the signer wrote for a GOP and no hash inputs collide, the compared NAL units are those of the GOP in order, and all of them if the report says OK. From end to end (C42_signed_partial): if the only SEIs received are those of an undisturbed signing session with any signature, or SEIs with a signed part that is not of the session and without list of hashes, if EVP_PKEY_verify accepts only what the session signed and hash inputs do not collide, then the NAL units compared in a call that reports OK or OK WITH MISSING INFO are NAL units of one signed GOP in order, all of them for OK; the GOP is that of the verified SEI, or that SEI has no list of hashes. Golden SEIs are left out."
  },
  {
   "property": "C43",
   "status": "proved",
   "theorems": [
    "SV.C43_hash_list",
    "SV.C43_losses"
   ],
   "note": "For every round in which the hash list is used, every list content: the outcomes are the greedy order preserving matching (specified in Spec/Match.lean independently of the model), unmatched items become N, the matched ones '.', gaps appear as inserted missing items in the order of the signed hashes, and the count returned is the number of missing ones. Hypotheses (SeiOk, Comparable) are met by an example."
  },
  {
   "property": "C44",
   "status": "partial",
   "theorems": [
    "SV.C44_confirmed_partial",
    "SV.C44_preset_partial",
    "SV.C44_in_order_partial"
   ],
   "note": "For undisturbed sessions, when a beginning of the protected NAL units and of the SEIs reaches a new validator in order and each SEI comes after its GOP, with unprotected NAL units added or left out anywhere: with the public key in the SEIs (C44_confirmed_partial), or with a key set by the user and the hash algorithm that sessions start with (C44_preset_partial), and for the order in which the signer hands out its data (C44_in_order_partial). Missing: golden SEIs, streams that do not begin with an intra picture, protected NAL units with an illegal header, SEIs whose emulation prevention hides the signature (C12)."
  },
  {
   "property": "C45",
   "status": "proved",
   "theorems": [
    "SV.C45_not_signed"
   ],
   "note": "For whole sessions with resets and public keys in between: no call fails, a report appears exactly at the first NAL unit of every GOP but the first, and says NOT SIGNED with every protected NAL unit pending. NAL units are required to be non-empty and parseable, and not to contain the UUID anywhere (a slight over-approximation of 'no Signed Video SEI')."
  },
  {
   "property": "C46",
   "status": "partial",
   "theorems": [
    "SV.C46_hang",
    "SV.C46_statement_false",
    "SV.C46_endless_partial",
    "SV.C46_ends_partial",
    "SV.C46_rounds_partial"
   ],
   "note": "Does not hold. C46_hang: after the loss of some GOPs of an honestly signed stream the call for the next I-frame does not end, whatever number of rounds is allowed. What holds, for every history and every input: C46_endless_partial (the loop goes on for ever exactly if a stuck state is reached, and never with a compiler that treats the overflow of the difference otherwise), C46_ends_partial (otherwise the outcome is independent of the number of rounds allowed), C46_rounds_partial (otherwise at most as many rounds as pending items)."
  },
  {
   "property": "C47",
   "status": "proved",
   "theorems": [
    "SV.C47_worst"
   ],
   "note": "C47_worst: for every history, a call that enters the validation loop and reports gives the minimum of the verdicts of its rounds (each round's own verdict is what the same round gives with a fresh report); SIGNATURE PRESENT only if nothing else is to report."
  },
  {
   "property": "C48",
   "status": "partial",
   "theorems": [
    "SV.C48_round",
    "SV.C48_report",
    "SV.C48_decoded",
    "SV.C48_golden_false",
    "SV.C48_forgotten_false"
   ],
   "note": "C48_report (all histories, any round of a call) and C48_round/C48_decoded (any state): a SEI validated in the loop that changes the verification key gives NOT OK and the flag. Not covered, shown false: a golden SEI that brings another key is reported SIGNATURE PRESENT (C48_golden_false); a failed golden SEI makes the session forget that a key was known, so the next change is not noticed (C48_forgotten_false)."
  },
  {
   "property": "C49",
   "status": "partial",
   "theorems": [
    "SV.C49_detect",
    "SV.C49_expected",
    "SV.C49_wrapping",
    "SV.C49_statement_false",
    "SV.C49_modular_partial"
   ],
   "note": "C49_detect is exact for all counters if the compiler does not make use of the overflow (see C54), C49_expected in any case. At the wrap around of the 32 bit counter a lost SEI is not detected (C49_statement_false); C49_modular_partial covers everything else. With two's complement arithmetic a lost SEI would never be detected (C49_wrapping)."
  },
  {
   "property": "C50",
   "status": "partial",
   "theorems": [
    "SV.C50_key_survives_false",
    "SV.C50_after_partial",
    "SV.C50_streams_partial"
   ],
   "note": "False of the code: the public key survives a reset (witness). After any history and a reset, an untouched stream is validated as by a new session if what is left over (key, algorithm, signature size, last counter) fits the stream (C50_after_partial); any number of streams with the same key and algorithm validate one after the other with a reset before each (C50_streams_partial)."
  },
  {
   "property": "C51",
   "status": "partial",
   "theorems": [
    "SV.C51_delimiter_false",
    "SV.C51_untouched_partial"
   ],
   "note": "For untouched streams, in which unprotected NAL units are added or left out anywhere: all reports say the same (C51_untouched_partial). False of the code in general: after a lost SEI an access unit delimiter before an I-frame changes the status of protected NAL units (witness)."
  },
  {
   "property": "C52",
   "status": "partial",
   "theorems": [
    "SV.C52_parsed_exactly",
    "SV.C52_no_overflow",
    "SV.C52_never_replaced",
    "SV.C52_record",
    "SV.C52_roundtrip",
    "SV.C52_short_chain_false"
   ],
   "note": "C52_parsed_exactly: the report is accepted exactly if its first two sizes and the rest add up to the stored length, and the fields are the encoded ones. C52_no_overflow: no read outside of it. C52_never_replaced and C52_record over all histories. C52_roundtrip: what the encoder writes the decoder stores (only the untrusted certificates are sent). False for chains of fewer than three certificates (C52_short_chain_false): the record that is sent is refused by every receiver."
  },
  {
   "property": "C53",
   "status": "proved",
   "theorems": [
    "SV.C53_ok",
    "SV.C53_never_recovers",
    "SV.C53_changed_key"
   ],
   "note": "C53_ok: over all histories, the verdict OK after a check means that chain, attestation and signature over this key were accepted and the serial number is that of the certificate (KeyProven). C53_never_recovers and C53_changed_key: the verdict stays not OK. X.509 and PEM are parameters."
  },
  {
   "property": "C54",
   "status": "partial",
   "theorems": [
    "SV.C54_overflow",
    "SV.C54_no_overflow_partial"
   ],
   "note": "Does not hold: the addition overflows whenever the counter is ahead (C54_overflow). C54_no_overflow_partial covers the other case."
  },
  {
   "property": "C55",
   "status": "partial",
   "theorems": [
    "SV.C55_invalid_key_false",
    "SV.C55_other_manufacturer_false",
    "SV.C55_live_partial"
   ],
   "note": "False of the code: a key received while the last one is known to be invalid (C55_invalid_key_false) or under other product information (C55_other_manufacturer_false) is not given to the vendor, which then hashes the freed one. C55_live_partial: it holds for all histories in which the vendor is told of every key."
  },
  {
   "property": "C56",
   "status": "partial",
   "theorems": [
    "SV.C56_stored_false",
    "SV.C56_beyond_false",
    "SV.C56_overread_false",
    "SV.C56_refused_partial"
   ],
   "note": "False of the code: a refused record leaves its attestation behind, after which the true one is refused for ever (C56_stored_false); bytes after the record are stored (C56_beyond_false); memory outside is read (C56_overread_false). C56_refused_partial: nothing is changed if an attestation was already stored."
  },
  {
   "property": "C57",
   "status": "partial",
   "theorems": [
    "SV.C57_midway_false",
    "SV.C57_whole_partial"
   ],
   "note": "False of the code when the stream is joined within a GOP: every SEI is then compared with the GOP before the one that it signs, and all reports say NOT OK (witness). Proved for a stream joined at the start of any GOP when no SEI of an earlier GOP comes after it: every report says OK from the first SEI on."
  },
  {
   "property": "C58",
   "status": "partial",
   "theorems": [
    "SV.C58_covered_partial",
    "SV.C58_covered_false",
    "SV.C58_marked_partial",
    "SV.C58_no_signature"
   ],
   "note": "Model/Legacy follows the session for the older format (lib/src/legacy) inside the newer one, with the switch to it and the replay of the NAL units so far. C58_covered_false: the flag used_in_gop_hash is not cleared when a validation fails after the GOP hash was computed (no public key yet) or when the verification returns neither 0 nor 1, and the next GOP hash that is verified marks what still has the flag: a SEI that nobody signed is shown with '.' in a report that says OK, and forged P-frames are shown with '.'. C58_marked_partial: for every history, each '.' in a report leads back to a round of a call since the session was created in which verify returned 1 for the key, signature and hash of that moment, and the item is in the hash list, or has the flag, or is the SEI. C58_no_signature: if verify never returns 1, no report ever shows '.'. C58_covered_partial: if hashes have 32 bytes, verify returns 0 or 1 and no call so far returned 'not supported' or 'invalid parameter' (the two ways in which flags are left behind), the hash that was verified is, for each '.', the hash of the SEI that was read, with the hash of the NAL unit in its list, or the GOP hash over hashes of NAL units of the list of which this is one, or the NAL unit is that SEI; signature, hash list and hash type are those decoded from that SEI. That the stored hashes are those of the bytes received is C69. Missing: nothing under these hypotheses; without them the statement is false."
  },
  {
   "property": "C59",
   "status": "partial",
   "theorems": [
    "SV.C59_ok_partial",
    "SV.C59_ok_unverified_false"
   ],
   "note": "False of the code: a SEI with a GOP hash whose verification fails with an error, or a SEI whose signature is refused, before which no NAL unit of a GOP is pending, gives OK although nothing was ever verified (C59_ok_unverified_false). C59_ok_partial: for every history, OK means that verify returned 1 in the last round of the call, or that this round changed the status of no NAL unit."
  },
  {
   "property": "C60",
   "status": "partial",
   "theorems": [
    "SV.C60_memory_false",
    "SV.C60_memory_partial"
   ],
   "note": "False of the code: if missing NAL units are appended behind the NAL unit of the call, the copy is made of the wrong item, and the list keeps a pointer to a local variable of the returned call, which the next validation reads. The witness consists of untouched NAL units of which a SEI is late. C60_memory_partial: with streams as in C77 and C78, received from the start or from the middle on, the outcome is that of defined behaviour and no item of the list is dead."
  },
  {
   "property": "C61",
   "status": "partial",
   "theorems": [
    "SV.C61_join_false",
    "SV.C61_join_partial"
   ],
   "note": "False of the code: joined at an I-frame, with hash lists or with GOP hashes, every later report says NOT OK in the runs shown (four SEIs). C61_join_partial: joined at the SEI of a GOP instead, every report from the second SEI on is OK."
  },
  {
   "property": "C62",
   "status": "partial",
   "theorems": [
    "SV.C62_reset_false",
    "SV.C62_streams_partial"
   ],
   "note": "False of the code: a reset resets the session for the older format but keeps it, so that all SEIs of the newer format are refused. What holds is C62_streams_partial: after a reset, any further stream of the older format with the same key gets exactly the reports a new session would give, for any number of streams with a reset before each. Missing from the partial: streams of the newer format, another key, and resets in the middle of a GOP."
  },
  {
   "property": "C63",
   "status": "partial",
   "theorems": [
    "SV.C63_recovery_false"
   ],
   "note": "False of the code: the SEI that is refused stays pending and is decoded again, and refused again, in every later call that validates. The witness is a stream with one changed byte; the theorem says that after it no call without a reset in between, whatever it is given, hands out a report."
  },
  {
   "property": "C64",
   "status": "partial",
   "theorems": [
    "SV.Keys.C64_refused_partial",
    "SV.Keys.C64_silent_false",
    "SV.Keys.C64_refused_false"
   ],
   "note": "Model/Keys: setting keys, signing and fetching, with the blocks of memory. C64_refused_partial: until the first key is accepted, nothing has an influence on what follows. False of the code afterwards: a key that cannot be read frees the memory for signatures, and no signature is handed out any more, whatever is called, until another key is read (C64_silent_false, for all histories before and after)."
  },
  {
   "property": "C65",
   "status": "partial",
   "theorems": [
    "SV.Keys.C65_order_partial",
    "SV.Keys.C65_order_false",
    "SV.Keys.C65_public"
   ],
   "note": "False of the code: a key set while hashes wait loses them, and the next signature is taken for the oldest waiting SEI (C65_order_false). C65_order_partial: for every history in which nothing waits when a key is accepted. C65_public: the public key always belongs to the private key accepted last."
  },
  {
   "property": "C66",
   "status": "partial",
   "theorems": [
    "SV.Digest.C66_hash_partial",
    "SV.Digest.C66_stale_false",
    "SV.Digest.C66_oid_false",
    "SV.Digest.C66_twice_false"
   ],
   "note": "False of the code: an encoded OID, as received in a SEI, sets the algorithm for hashes in one go only; C66_stale_false: as long as only OIDs are set, the context for parts stays with the default algorithm, for all sequences of calls. C66_twice_false: an unknown OID is an error only the first time. C66_hash_partial: for all sequences of calls in which each OID belongs to the algorithm in force."
  },
  {
   "property": "C67",
   "status": "partial",
   "theorems": [
    "SV.Keys.C67_path_partial",
    "SV.Keys.C67_path_false"
   ],
   "note": "False of the code for the empty directory, where the byte before the string is read. C67_path_partial: all other directories and file names."
  },
  {
   "property": "C68",
   "status": "partial",
   "theorems": [
    "SV.Keys.C68_memory",
    "SV.Keys.C68_leak_partial",
    "SV.Keys.C68_leak_false"
   ],
   "note": "C68_memory: no double free, no write out of bounds, for all histories. False of the code: the memory of the first key is leaked when a second one is read (C68_leak_false). C68_leak_partial: nothing is left for all histories in which at most one key can be read."
  },
  {
   "property": "C69",
   "status": "proved",
   "theorems": [
    "SV.C69_received"
   ],
   "note": "C69_received: the items of the list carry hashes of the NAL units received (invariant Stored over all calls, with a log of the NAL units passed to the session, including those replayed when the format is recognised), pending items always have a hash, and what is decoded from a SEI is decoded from its bytes; together with the marks of C58 this gives, for every '.', a received SEI with an accepted signature and the received NAL units that went into what it signs. The reference hash that P-frames are hashed with is the hash of some NAL unit received earlier, or zeros."
  },
  {
   "property": "C70",
   "status": "partial",
   "theorems": [
    "SV.C70_total",
    "SV.C70_older",
    "SV.C70_again",
    "SV.C70_latest_partial",
    "SV.C70_latest_false"
   ],
   "note": "The total result is specified as a function of the list of reports the user has seen (Spec/Total), and C70_total shows that the incrementally updated accumulated validation agrees with it after every history of calls, errors included, in a session for the newer format; C70_older the same from any point on in a session for the older format; C70_again that a fetched report repeats the one just handed out, but for the flag of the time stamp. C70_latest_false: a call that fails while it validates leaves a fetched report with the verdict of the validation given up and the strings of the one before, and here NOT OK becomes 'signature present'. C70_latest_partial: a call that returns SV_OK without a report keeps the latest validation. Missing: calls that return an error, and the call in which the session switches to the older format, where the total result is started afresh and replayed NAL units may add to it without a report being handed out."
  },
  {
   "property": "C71",
   "status": "partial",
   "theorems": [
    "SV.C71_generated",
    "SV.C71_escaped",
    "SV.C71_zeros_partial",
    "SV.C71_zeros_statement_false",
    "SV.C71_only"
   ],
   "note": "C71_generated: a generated SEI gets the answer it was generated with, with and without emulation prevention; C71_escaped: the same for a SEI generated without emulation prevention that got it on the way, with any number of zero bytes after it; C71_only: any byte string with the answer yes has the form of a golden SEI as written in Spec/Golden. C71_zeros_statement_false: trailing zero bytes are not removed by this function, and with one zero byte after a SEI without emulation prevention the payload is taken for one with emulation prevention; contents with 00 00 03 then make it read behind the NAL unit. C71_zeros_partial: appended zero bytes do not matter for SEIs with emulation prevention."
  },
  {
   "property": "C72",
   "status": "partial",
   "theorems": [
    "SV.RepMem.C72_safe_statement_false",
    "SV.RepMem.C72_safe_statement_false_local",
    "SV.RepMem.C72_safe_partial",
    "SV.RepMem.C72_copy",
    "SV.RepMem.C72_kept",
    "SV.RepMem.C72_values",
    "SV.RepMem.C72_no_leak",
    "SV.RepMem.C72_set"
   ],
   "note": "C72_safe_partial: no undefined behaviour in any sequence of operations if the version strings get their memory, whatever other allocations fail; C72_safe_statement_false (and _false_local): authenticity_report_init does not check its two allocations, and transfer_authenticity then writes or reads through NULL. C72_copy: what is handed out reads as the local report, or nothing is handed out and all texts stay; C72_kept: a report handed out reads the same until it is freed; C72_values: with memory enough all texts are those of a machine without memory (Vals.apply); C72_no_leak: the blocks left after closing are those of the reports not freed; C72_set: product information set is all new or, when memory is short, all gone."
  },
  {
   "property": "C73",
   "status": "partial",
   "theorems": [
    "SV.C73_from_sei_partial",
    "SV.C73_camera_partial",
    "SV.C73_statement_false"
   ],
   "note": "C73_from_sei_partial: after any calls the product information is that of a new session, or all five texts are those of one record of a received SEI (Spec/Product: walk over the records, texts that end with NUL). C73_camera_partial: if the SEIs received are those of an undisturbed signing session, with any signatures, it is what was set there, of each text at most 254 characters. C73_statement_false: a recording that starts within a stream, with a changed serial number in the SEI of the GOP before it, is found authentic in all reports and shows the changed serial number, because a first validation that is not OK is taken back but not what was decoded for it."
  },
  {
   "property": "C74",
   "status": "partial",
   "theorems": [
    "SV.C74_contained_partial",
    "SV.C74_exact_partial"
   ],
   "note": "C74_contained_partial: the GOPs that came as signed, with the intra picture before, are OK whatever happened to the others, for any changes between intra pictures from the second GOP on (Spec/Damage); C74_exact_partial: at authenticity level GOP, if the hashed inputs do not collide, exactly the others are NOT OK. Missing: lost or additional intra pictures and lost SEIs, damage to the first GOP, golden SEIs; detection with lists of hashes is C42."
  },
  {
   "property": "C75",
   "status": "partial",
   "theorems": [
    "SV.C75_diagnosed_partial",
    "SV.C75_mask_false"
   ],
   "note": "C75_diagnosed_partial: exact verdict for each GOP with a complete list of hashes, including the numbers sent, received and marked as missing, for any changes between intra pictures from the second GOP on, if the hashed inputs do not collide and no intra picture consists of two hashes; C75_mask_false: the last assumption is needed, since the hash of an intra picture and that of other NAL units are not kept apart. Missing: lost or additional intra pictures and lost SEIs, damage to the first GOP, golden SEIs, the position of the items marked as missing."
  },
  {
   "property": "C76",
   "status": "proved",
   "theorems": [
    "SV.C76_old_ok"
   ],
   "note": "C76_old_ok: by induction over GOPs, with the state between two calls described by the hashes of the NAL units since the start of the GOP; Spec/Old describes the stream, the bytes of the SEIs and the reports independently of the model. Two variants of the SEI and of the general tag are in the example. The parts of a stream before the first SEI must not contain pictures (a session that joins in the middle of a GOP is not covered)."
  },
  {
   "property": "C77",
   "status": "proved",
   "theorems": [
    "SV.C77_old_gop_hash",
    "SV.C77_old_altered",
    "SV.C77_old_damage"
   ],
   "note": "C77_old_damage gives the exact reports in terms of which SEIs match what was received (also for altered SEIs); C77_old_gop_hash shows that other NAL units give another GOP hash unless two of the inputs named there collide; C77_old_altered combines the two for a stream as sent and as received. Not covered: alterations in GOPs signed by lists of hashes, a first SEI that does not match, lost or added SEIs, GOPs that lose their intra picture."
  },
  {
   "property": "C78",
   "status": "partial",
   "theorems": [
    "SV.C78_old_join_partial",
    "SV.C78_old_join_ok_partial",
    "SV.C78_first_false"
   ],
   "note": "C78_old_join_partial: the round in which the first SEI finds only the first NAL unit of its own GOP, for lists of hashes (nothing is found, missing items are inserted) and for GOP hashes (the hash does not match); all of it is taken back, and the state is the one of C77. C78_old_join_ok_partial is the case without later damage. C78_first_false: the last sentence of the property is false. With the first SEI, which signs one NAL unit, legacy_maybe_validate_gop (legacy_h26x_auth.c 937-949) sets the I-frame back to its state before the round, so that the next SEI is tried with this I-frame alone; it fails, and from then on each SEI is used for the wrong GOP. A single change of the first I-frame makes all GOPs NOT OK."
  },
  {
   "property": "C79",
   "status": "partial",
   "theorems": [
    "SV.KeyGen.C79_memory",
    "SV.KeyGen.C79_ok_partial",
    "SV.KeyGen.C79_fail_partial",
    "SV.KeyGen.C79_arguments",
    "SV.KeyGen.C79_path_false",
    "SV.KeyGen.C79_close_false",
    "SV.KeyGen.C79_left_false"
   ],
   "note": "The functions that generate keys with a file system and blocks of memory; every step that can fail does or does not according to a parameter. C79_memory: nothing leaks and nothing is freed twice, whatever fails. C79_ok_partial and C79_fail_partial: what holds after SV_OK and after an error. C79_path_false: if there is no memory for the path, the path is NULL and the file is silently not written; SV_OK is returned. C79_close_false: the result of fclose is not looked at, so a full disk goes unnoticed, contrary to signed_video_openssl.h 155 (\"successfully written PEM-file\"). C79_left_false: if the copy in memory fails, which is made even when not asked for, an error is returned but the key file stays. An empty directory is C67."
  },
  {
   "property": "C80",
   "status": "partial",
   "theorems": [
    "SV.C80_delimiter_false",
    "SV.C80_nothing_ok_false",
    "SV.C80_first_false",
    "SV.C80_lost_seis_partial"
   ],
   "note": "C80_lost_seis_partial: several rounds in one call, each of which marks the NAL units of one GOP as invalid (verify_hashes_without_sei) until the counter of the SEI is reached; then its own GOP is validated with the linked hash carried along. Proved for every number of lost SEIs, if the first SEI is received and each intra picture comes directly after another protected NAL unit. C80_delimiter_false: with access unit delimiters before the intra pictures and one SEI lost, verify_hashes_without_sei (signed_video_h26x_auth.c 549-590), which looks at the item directly before an intra picture, does not see the end of the GOP and also marks the NAL units of the GOP whose SEI was received; the validation stays out of step. C80_nothing_ok_false: one of these reports is even OK with none of three NAL units received. C80_first_false: if the first SEI is lost no GOP is ever OK. The numbers in the report (expected -1, received less one for each lost SEI) are those of the code."
  },
  {
   "property": "C81",
   "status": "partial",
   "theorems": [
    "SV.C81_defined",
    "SV.C81_awake",
    "SV.C81_exit_returns",
    "SV.C81_nothing_left",
    "SV.C81_own_partial",
    "SV.C81_overlap_false",
    "SV.C81_early_false",
    "SV.C81_early_forever"
   ],
   "note": "Model/Life: the central thread, the sessions and the callers of init and exit as steps between which the mutex is released; a signal wakes one sleeper, chosen by the schedule. C81_defined, C81_awake, C81_exit_returns and C81_nothing_left: for all schedules that keep to the order of calls (MayCall). C81_own_partial: for fewer than 2^32 set ups, since ids are reused when the counter wraps. C81_overlap_false: two overlapping calls of exit (both pass the test of central.thread, plugin.c 716-744) free sign_data while the worker signs with it. C81_early_false: if exit is called while init waits, the worker sets is_running again when it starts and exit waits for ever; C81_early_forever: no schedule whatever makes it return. Setting central.thread is part of the step in which the thread is created; unlocked reads of it are steps."
  },
  {
   "property": "C82",
   "status": "partial",
   "theorems": [
    "SV.C82_memory",
    "SV.C82_left",
    "SV.C82_returned_partial",
    "SV.C82_returned_false",
    "SV.C82_leak_grows"
   ],
   "note": "Model/PlugMem: the blocks of memory of the plugin, every call and every step of a worker as one step. C82_memory: for all histories in which only sessions that are set up are torn down, nothing is undefined, and the live blocks are those referred to, each once, and one for each session with its own thread that could not be set up. C82_left: exactly these are left at the end. C82_returned_false, C82_leak_grows: local_setup (plugin.c 677-714) frees what its threaded_data_t refers to but not the threaded_data_t, so each attempt with a key that cannot be read leaks one. C82_returned_partial: nothing is left if no such set up fails. Allocations inside openssl_private_key_malloc are assumed to succeed."
  },
  {
   "property": "C83",
   "status": "partial",
   "theorems": [
    "SV.C83_query_exact",
    "SV.C83_prepend_partial",
    "SV.C83_prepend_false"
   ],
   "note": "Model/Sign: seiSize (the size reported), intoRoom (copying to memory of that size, an overflow if it is too small). C83_query_exact: the next SEI handed out has the size reported, over all later histories without signed_video_get_nalu_to_prepend. C83_prepend_false: get_nalu_to_prepend (signed_video_h26x_sign.c 693-713) asks the plugin for signatures before it allocates and again before it copies; if the signature of a larger SEI arrives in between, that SEI is copied to the memory of the smaller one. C83_prepend_partial: no overflow if no signature arrives in between. malloc is assumed to succeed."
  },
  {
   "property": "C84",
   "status": "partial",
   "theorems": [
    "SV.C84_offset",
    "SV.C84_encoder",
    "SV.C84_any_false"
   ],
   "note": "Model/Payload: the offset. Spec/Payload: an encoder that writes a SEI with user data according to the standards (size coding, emulation prevention), independent of the library. C84_offset for every SEI; C84_encoder: for SEIs without emulation prevention, what the encoder writes is parsed as the SEI handed out, in all members the validator uses. C84_any_false: with emulation prevention by the library the encoder applies it twice, and the TLVs are not found; the description of signed_video_get_sei does not say that signed_video_set_sei_epb(self, false) is needed."
  },
  {
   "property": "C85",
   "status": "partial",
   "theorems": [
    "SV.Props.C85_when",
    "SV.Props.C85_partial",
    "SV.Props.C85_null",
    "SV.Props.C85_false_null",
    "SV.Props.C85_false_leak"
   ],
   "note": "Model/Create: signed_video_create and signed_video_free with every result of a call that can fail as a parameter, and the calls that change the crypto handle in between; pointers are blocks of memory. C85_when: exactly when there is a session, NULL, or a dereference of NULL. C85_partial: without that dereference memory is given back, except for one ASN1_OBJECT for each algorithm given as text of an OID. C85_false_null, C85_false_leak: witnesses. Members that other properties deal with (keys C68, reports C72, the older format C60, plugins C68 and C82) are NULL here."
  },
  {
   "property": "C86",
   "status": "partial",
   "theorems": [
    "SV.Props.C86_paired",
    "SV.Props.C86_partial",
    "SV.Props.C86_spoiled",
    "SV.Props.C86_unverifiable",
    "SV.Props.C86_unthreaded",
    "SV.Props.C86_false"
   ],
   "note": "Joins the models of the signing session (C30-C32) with those of the threaded (C27) and the unthreaded plugin (C65): hashes given away are the hashes accepted, signatures taken are those handed out. C86_paired: SEIs and signatures are paired by number. C86_unthreaded: the claim. C86_partial: with the threaded plugin up to the first gap. C86_spoiled, C86_unverifiable: after one hash that cannot be signed, every later SEI carries the signature of a later one, for histories of any length. C86_false: witness without any error returned to the user. The interleaving of the two models is not fixed beyond the equality of the sequences, which makes the theorems cover more than the real interleavings; central thread only (get_signature is the same code for local threads)."
  },
  {
   "property": "C87",
   "status": "partial",
   "theorems": [
    "SV.C87_never",
    "SV.C87_new",
    "SV.C87_taken",
    "SV.C87_kept",
    "SV.C87_refused_partial",
    "SV.C87_false",
    "SV.C87_seen"
   ],
   "note": "C87_taken: a SEI that is decoded fixes the room for the signature. C87_kept: it stays for every history of calls, resets and keys. C87_refused_partial: a round due to a SEI with another room fails, in any later call; the sizes are read from the TLV data by a walk of its own (Spec/SigSize). C87_false, C87_seen: a stream that a new session reports OK is refused SEI by SEI with SV_MEMORY after a stream with smaller signatures, with and without a reset. C87_never: after a reset no stream whose SEIs all have another room is ever reported as OK or OK with missing info, for all calls."
  },
  {
   "property": "C88",
   "status": "partial",
   "theorems": [
    "SV.Props.C88_only",
    "SV.Props.C88_partial",
    "SV.Props.C88_null",
    "SV.Props.C88_false_null",
    "SV.Props.C88_leak",
    "SV.Props.C88_false_leak"
   ],
   "note": "C88_only: in any history the only undefined behaviour is a NULL key. C88_partial: without a failing allocation for a key in a SEI, memory is as before but for at most one block, exactly if the last record of arbitrary data was accepted. C88_null: key, failed allocation for a key of another length, key of the first length: NULL is dereferenced after any history. C88_leak, C88_false_null, C88_false_leak: the claim is false. Records are given by their sizes and the results of the calls, not by bytes (those are the subject of C11); vendors are left out."
  },
  {
   "property": "C89",
   "status": "partial",
   "theorems": [
    "SV.Props.C89_partial",
    "SV.Props.C89_notFilled",
    "SV.Props.C89_axis",
    "SV.Props.C89_noDigest",
    "SV.Props.C89_false",
    "SV.Props.C89_false'",
    "SV.Props.C89_own_partial",
    "SV.Props.C89_wholeHashes",
    "SV.Props.C89_session_partial"
   ],
   "note": "C89_partial: if all hash sizes are between 1 and 64 and divide the 19200 bytes of the array, and (with the vendor code) no key follows product information of Axis and there is no vendor record, printing has exactly the undefined behaviour of decoding; the rows are all records, or those before the first that cannot be decoded, and each hash list is shown with the size in force. C89_axis, C89_noDigest, C89_notFilled, C89_false, C89_false': the conditions are needed. The texts printed for other records are not modelled, their values stand for them. C89_own_partial: every SEI made by the library, golden or not, without vendor record, is printed completely, also if it names Axis. C89_session_partial: so is every SEI handed out in any history of an undisturbed signing session. C89_wholeHashes: the lines of a list of whole hashes are the list."
  },
  {
   "property": "C90",
   "status": "partial",
   "theorems": [
    "SV.C90_golden",
    "SV.C90_thawed",
    "SV.C90_level_partial",
    "SV.C90_level_false"
   ],
   "note": "C90_golden: every history of a new session; C90_thawed: a reset at any place; C90_level_partial: the level GOP holds through failures and resets if no golden SEI is requested. C90_level_false: a request for a golden SEI, even one that fails, changes the level to frame for all later SEIs."
  },
  {
   "property": "C91",
   "status": "partial",
   "theorems": [
    "SV.C91_partial",
    "SV.C91_false"
   ],
   "note": "C91_partial: with the interval 1 every SEI generated for a NAL unit given as a whole has the recurrent data, in any state. C91_false: with the interval 25, a GOP, a reset and another GOP, the SEI after the reset has none. Other intervals without a reset are C39."
  }
 ]
}