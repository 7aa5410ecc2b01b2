{"id": "C01", "title": "Emulation prevention is reversible", "statement": "Whatever bytes the signer writes into a SEI with emulation prevention switched on, a reader that removes emulation prevention bytes gets back exactly the bytes that were written, and consumes exactly the bytes that were produced.", "quantifier": "every finite byte sequence, and every value of the two preceding bytes with which the writer is resumed (the signature is written later than the rest)", "why_tests_cant": "The encoder is a state machine over the two previous bytes; the set of byte strings is infinite and a boundary error (e.g. at the point where the signature is appended) only shows for particular zero runs.", "anchors": ["lib/src/signed_video_tlv.c: write_byte, write_byte_many, read_byte", "lib/src/signed_video_h26x_common.c: remove_epb_from_sei_payload"]}
{"id": "C02", "title": "A generated SEI never emulates a start code", "statement": "In a SEI produced with emulation prevention on, no position after the leading start code contains 00 00 00, 00 00 01 or 00 00 02, so a decoder splitting the byte stream on start codes never cuts the SEI.", "quantifier": "every payload content (any TLV bytes, any signature bytes), both codecs, any reserved-byte flags", "why_tests_cant": "Depends on every three-byte window of an arbitrarily long byte string, including the windows that straddle separately written fields.", "anchors": ["lib/src/signed_video_tlv.c: write_byte", "lib/src/signed_video_h26x_sign.c: generate_sei_nalu, get_sign_and_complete_sei_nalu"]}
{"id": "C03", "title": "The SEI allocation covers what is written", "statement": "The number of bytes written while generating and completing a SEI never exceeds the number of bytes allocated for it.", "quantifier": "every payload content and size, both codecs, emulation prevention on or off", "why_tests_cant": "Overflow depends on the distribution of zero bytes in user supplied data (arbitrary data, product info); tests use a handful of payloads and an overflow of a few heap bytes is usually silent.", "anchors": ["lib/src/signed_video_h26x_sign.c: generate_sei_nalu (sei_buffer_size), get_sign_and_complete_sei_nalu", "lib/src/signed_video_tlv.c: write_byte"]}
{"id": "C04", "title": "Integers survive serialisation", "statement": "Reading back a 16, 32 or 64 bit value written to a SEI gives the same value, for signed timestamps including negative ones, independently of emulation prevention.", "quantifier": "all 2^16, 2^32 and 2^64 values", "why_tests_cant": "Ranges are too large to enumerate; sign extension and shift errors show only for large values.", "anchors": ["lib/src/signed_video_tlv.c: read_16bits, read_32bits, read_64bits, read_64bits_signed, write_byte"]}
{"id": "C05", "title": "Size query equals what is written", "statement": "The size reported for a list of tags before encoding equals the number of bytes then produced when emulation prevention is off, and with emulation prevention on the produced bytes are at least that many and at most one and a half times as many plus one.", "quantifier": "every list of tags and every session state (any lengths of keys, lists, strings, signatures)", "why_tests_cant": "Two separate code paths (size computation and writing) must agree for every combination of field lengths.", "anchors": ["lib/src/signed_video_tlv.c: tlv_list_encode_or_get_size, tlv_encode_or_get_size_generic and all encoders"]}
{"id": "C06", "title": "General metadata round trip", "statement": "Decoding the general tag written by the signer yields its GOP counter (previous counter plus one), number of NAL units, library version, timestamp presence and value, linked hash and GOP hash.", "quantifier": "every counter (mod 2^32), NALU count (mod 2^16), timestamp, hash content and every hash size from 1 to 64", "why_tests_cant": "The decoder infers the hash size from the remaining length; correctness over all optional-field combinations and sizes is universal.", "anchors": ["lib/src/signed_video_tlv.c: encode_general, decode_general"]}
{"id": "C07", "title": "Product info round trip and truncation", "statement": "Each of the five product info strings set on the signing side is reported on the validation side as the same string cut to at most 254 characters; an unset string is reported as empty.", "quantifier": "all quintuples of strings without embedded NUL, of any length, or unset", "why_tests_cant": "Five concatenated variable length fields; off-by-one at 254/255 characters and interactions between fields are universal statements.", "anchors": ["lib/src/signed_video_tlv.c: encode_product_info, decode_product_info", "lib/src/signed_video_h26x_sign.c: signed_video_set_product_info"]}
{"id": "C08", "title": "Arbitrary data round trip", "statement": "User supplied arbitrary data placed in a SEI is delivered unchanged to the validating side.", "quantifier": "all byte strings up to the supported size; the statement for all byte strings is false because of the 16 bit length field and is recorded as such", "why_tests_cant": "Content and length are unbounded; the failing lengths are at the 16 bit boundary.", "anchors": ["lib/src/signed_video_tlv.c: encode_arbitrary_data, decode_arbitrary_data, tlv_encode_or_get_size_generic"]}
{"id": "C09", "title": "Public key, hash list, signature and crypto info round trips", "statement": "A PEM key, a list of NAL unit hashes, a signature with its padding, and a hash algorithm identifier written to a SEI are each decoded to the same content.", "quantifier": "every content within the size limits of the fields, and every previous state of the validating session that the decoder accepts", "why_tests_cant": "Each decoder mixes length arithmetic with state checks (already allocated sizes); only a proof covers all lengths.", "anchors": ["lib/src/signed_video_tlv.c: encode_public_key, decode_public_key, encode_hash_list, decode_hash_list, encode_signature, decode_signature, encode_crypto_info, decode_crypto_info"]}
{"id": "C10", "title": "A TLV sequence decodes to the same sequence", "statement": "Any sequence of tags with values that fit their length fields, once encoded back to back, is split by the decoder into exactly the same tags and values in the same order.", "quantifier": "every finite sequence of known tags and every value that fits", "why_tests_cant": "Framing errors appear for particular length combinations (one versus two length bytes); sequences are unbounded.", "anchors": ["lib/src/signed_video_tlv.c: tlv_encode_or_get_size_generic, tlv_list_encode_or_get_size, decode_tlv_header, tlv_decode"]}
{"id": "C11", "title": "Decoding arbitrary bytes is memory safe", "statement": "Decoding TLV data received in a SEI never reads outside the data, never writes outside a fixed size buffer and never calls a missing decoder.", "quantifier": "every byte string an attacker can put into a SEI payload", "why_tests_cant": "Hostile inputs are not enumerable. (False for the code: concrete witnesses are proved, and the conditions under which it does hold.)", "anchors": ["lib/src/signed_video_tlv.c: tlv_decode, decode_tlv_header, decode_general, decode_product_info, get_decoder, tlv_find_and_decode_optional_tags"]}
{"id": "C12", "title": "Signer and validator hash the same SEI bytes", "statement": "For a SEI generated by the library, the bytes that the validator hashes (everything before the signature tag) are exactly the bytes the signer hashed and signed.", "quantifier": "every content of the SEI, both codecs, emulation prevention on or off, any number of emulation prevention bytes before or inside the signature", "why_tests_cant": "The validator rediscovers the position of the signature tag by scanning a byte string that contains arbitrary values which may look like that tag.", "anchors": ["lib/src/signed_video_tlv.c: tlv_find_tag", "lib/src/signed_video_h26x_auth.c: update_hashable_data", "lib/src/signed_video_h26x_sign.c: generate_sei_nalu", "lib/src/signed_video_h26x_common.c: parse_nalu_info"]}
{"id": "C13", "title": "A generated SEI is recognised and parsed back", "statement": "Parsing a completed SEI on the validation side recognises it as a Signed Video SEI, with the same TLV payload, the same golden flag and the same emulation prevention flag as it was generated with.", "quantifier": "every TLV payload, signature, codec and flag combination", "why_tests_cant": "The payload length is recomputed from a run of 0xFF bytes and the number of emulation prevention bytes is inferred from lengths; boundary lengths are at every multiple of 255.", "anchors": ["lib/src/signed_video_h26x_common.c: parse_nalu_info, h264_get_payload_size, remove_epb_from_sei_payload", "lib/src/signed_video_h26x_sign.c: generate_sei_nalu"]}
{"id": "C14", "title": "Start code format does not matter", "statement": "A NAL unit is classified and hashed identically whether it is given with a 4 byte start code, a 3 byte start code or without start code.", "quantifier": "every NAL unit body that does not itself begin with a start code pattern", "why_tests_cant": "Universal over NAL unit content.", "anchors": ["lib/src/signed_video_h26x_common.c: parse_nalu_info"]}
{"id": "C15", "title": "Trailing zero bytes do not matter", "statement": "Zero bytes appended after the stop bit of a NAL unit (as added by some containers) change neither its classification nor what is hashed.", "quantifier": "every NAL unit that contains a non zero byte and every number of appended zeros", "why_tests_cant": "Universal over content and over the number of zeros.", "anchors": ["lib/src/signed_video_h26x_common.c: parse_nalu_info", "lib/src/signed_video_h26x_sign.c: signed_video_add_nalu_part_for_signing_with_timestamp"]}
{"id": "C16", "title": "Which NAL units are protected", "statement": "A NAL unit given for signing contributes to the signature exactly when its header type is a non-IDR slice or IDR slice (H.264 types 1 and 5) or H.265 types 0, 1 and 16 to 21; the claim that every coded slice is protected is false (H.264 data partitions, H.265 types 2 to 9).", "quantifier": "all header byte values of both codecs", "why_tests_cant": "Needs the whole header space and the negative part is a statement about absence of an effect.", "anchors": ["lib/src/signed_video_h26x_common.c: parse_h264_nalu_header, parse_h265_nalu_header, parse_nalu_info, hash_and_add"]}
{"id": "C17", "title": "Parsing a NAL unit is memory safe", "statement": "Parsing a NAL unit of any size never reads outside the buffer given by the user.", "quantifier": "every non empty byte string", "why_tests_cant": "Out-of-bounds reads of a few bytes rarely crash. (False for short and for all-zero inputs; proved true for inputs long enough for what they announce.)", "anchors": ["lib/src/signed_video_h26x_common.c: parse_nalu_info, read_32bits, h264_get_payload_size"]}
{"id": "C18", "title": "Report strings are aligned with the NAL unit list", "statement": "The validation string and the NAL unit type string of a report have the same length, equal to the number of NAL units still in the session plus the detected missing ones, and position i of both describe the same NAL unit.", "quantifier": "every history of added NAL units, validations, insertions of missing items and clean ups", "why_tests_cant": "Invariant over all histories of a linked list with insertions in the middle.", "anchors": ["lib/src/signed_video_h26x_nalu_list.c: h26x_nalu_list_get_str, h26x_nalu_list_append, h26x_nalu_list_add_missing, h26x_nalu_list_clean_up, h26x_nalu_list_refresh"]}
{"id": "C19", "title": "Linked list integrity", "statement": "The NAL unit list always keeps consistent forward and backward links, first and last pointers and item count.", "quantifier": "every sequence of list operations (append, add missing before or after any item, remove, clean up)", "why_tests_cant": "Pointer invariants under arbitrary operation sequences.", "anchors": ["lib/src/signed_video_h26x_nalu_list.c: h26x_nalu_list_item_append_item, h26x_nalu_list_item_prepend_item, h26x_nalu_list_remove_and_free_item, h26x_nalu_list_refresh, is_in_list"]}
{"id": "C20", "title": "No NAL unit is lost or double counted", "statement": "At any time, the number of NAL units passed in equals the number removed as validated plus the number still held, and the accumulated report accounts for all of them: received = validated + pending when the stream is signed.", "quantifier": "every history of NAL units without reset", "why_tests_cant": "Conservation law over unbounded histories.", "anchors": ["lib/src/signed_video_h26x_nalu_list.c: h26x_nalu_list_clean_up", "lib/src/signed_video_authenticity.c: update_authenticity_report, signed_video_get_authenticity_report", "lib/src/signed_video_h26x_auth.c: signed_video_add_h26x_nalu"]}
{"id": "C21", "title": "Clean up removes only settled NAL units from the front", "statement": "After a report, the NAL units kept for the next validation are a suffix of the list that is empty or starts with a pending one, and nothing pending is removed.", "quantifier": "every list content", "why_tests_cant": "Universal over list contents.", "anchors": ["lib/src/signed_video_h26x_nalu_list.c: h26x_nalu_list_clean_up"]}
{"id": "C22", "title": "Accumulated verdict reflects the worst verdict", "statement": "Once a GOP has been reported as not authentic, the accumulated authenticity never goes back to a better verdict until reset.", "quantifier": "every sequence of latest verdicts", "why_tests_cant": "History property. (False in general: a later low verdict makes the accumulated one forget; proved with a witness, and the exact class of histories for which it holds is proved.)", "anchors": ["lib/src/signed_video_authenticity.c: update_accumulated_validation, update_authenticity_report"]}
{"id": "C23", "title": "A changed public key sticks in the accumulated report", "statement": "If any latest report flags that the public key has changed, every later accumulated report flags it until reset; a public key validation of NOT_OK also sticks.", "quantifier": "every sequence of reports", "why_tests_cant": "History property.", "anchors": ["lib/src/signed_video_authenticity.c: update_accumulated_validation, accumulated_validation_init"]}
{"id": "C24", "title": "Accumulated timestamps span the reports", "statement": "The accumulated first timestamp is the timestamp of the first report that carried one and the last timestamp is that of the latest report that carried one.", "quantifier": "every sequence of reports with or without timestamps", "why_tests_cant": "History property.", "anchors": ["lib/src/signed_video_authenticity.c: update_accumulated_validation"]}
{"id": "C25", "title": "Version comparison is a lexicographic order", "statement": "Comparing version strings orders major, minor, patch lexicographically: equal iff all equal, antisymmetric and transitive; a malformed string is reported as an error; a video signed by a newer version is reported as version mismatch.", "quantifier": "all triples of version numbers a version string can carry", "why_tests_cant": "Order laws quantify over triples of values; integer subtraction may overflow for extreme values, which is stated.", "anchors": ["lib/src/signed_video_h26x_common.c: signed_video_compare_versions, version_str_to_bytes", "lib/src/signed_video_authenticity.c: update_authenticity_report"]}
{"id": "C26", "title": "Unthreaded plugin is a bounded FIFO", "statement": "Signatures are returned in the order the hashes were submitted, each is the signature of its own hash, at most 60 are pending, and a refused submission changes nothing.", "quantifier": "every interleaving of submissions and fetches", "why_tests_cant": "Universal over call sequences.", "anchors": ["lib/plugins/unthreaded-signing/plugin.c: unthreaded_openssl_sign_hash, unthreaded_openssl_get_signature, sv_signing_plugin_sign, sv_signing_plugin_get_signature"]}
{"id": "C27", "title": "Threaded plugin never mixes sessions", "statement": "With one central signing thread shared by many sessions, a session only ever receives signatures of hashes it submitted itself, in submission order, under every interleaving of the sessions and the worker thread.", "quantifier": "every number of sessions, every schedule of submissions, fetches, set ups, tear downs and worker steps", "why_tests_cant": "Schedules are unbounded and races are rare in tests.", "anchors": ["lib/plugins/threaded-signing/plugin.c: sign_hash, get_signature, central_worker_thread, buffer_reset, central_setup, central_teardown"]}
{"id": "C28", "title": "Threaded plugin buffers stay within bounds", "statement": "The input and output buffers never hold more than 60 elements and no index outside the buffers is accessed.", "quantifier": "every schedule, central and per-session thread", "why_tests_cant": "Needs an invariant over all schedules. (The per-session thread reads one element past the end when the input buffer is full: witness.)", "anchors": ["lib/plugins/threaded-signing/plugin.c: sign_hash, central_worker_thread, local_worker_thread, buffer_reset"]}
{"id": "C29", "title": "Session ids are unique", "statement": "Two sessions that are active at the same time never have the same id, ids are never zero, and set up fails rather than reusing an active id.", "quantifier": "every history of set ups and tear downs, including wrap around of the id counter", "why_tests_cant": "Wrap around needs 2^32 set ups.", "anchors": ["lib/plugins/threaded-signing/plugin.c: central_setup, is_active, central_teardown"]}
{"id": "C30", "title": "At most 60 SEIs are buffered and indices stay in range", "statement": "The number of pending SEIs never exceeds 60, completed SEIs never exceed pending SEIs, and every buffer access made while signing is inside the buffer.", "quantifier": "every sequence of signing API calls and every outcome of the signing plugin", "why_tests_cant": "Invariant over unbounded call histories with non deterministic plugin outcomes.", "anchors": ["lib/src/signed_video_h26x_sign.c: add_payload_to_buffer, complete_sei_nalu_and_add_to_prepend, shift_sei_buffer_at_index, signed_video_get_sei, get_latest_sei, signed_video_set_end_of_stream"]}
{"id": "C31", "title": "SEIs are delivered in order and exactly once", "statement": "Through the get-SEI API every generated SEI is delivered at most once, in generation order, without gaps; the number of pending SEIs reported is exactly generated minus delivered.", "quantifier": "every call sequence with a plugin that eventually signs every hash", "why_tests_cant": "History property.", "anchors": ["lib/src/signed_video_h26x_sign.c: signed_video_get_sei, shift_sei_buffer_at_index, get_signature_complete_sei_and_add_to_prepend"]}
{"id": "C32", "title": "Each SEI carries its own signature", "statement": "The signature completed into a SEI is the signature of the hash of that very SEI.", "quantifier": "every interleaving of generation, asynchronous signing and fetching, every plugin that is a FIFO", "why_tests_cant": "Pairing by position between two queues is a history property; false when the plugin drops or fails one signature, which is shown by a witness.", "anchors": ["lib/src/signed_video_h26x_sign.c: complete_sei_nalu_and_add_to_prepend, get_signature_complete_sei_and_add_to_prepend", "lib/plugins/threaded-signing/plugin.c: central_worker_thread, get_signature"]}
{"id": "C33", "title": "A SEI is only released in front of a primary slice", "statement": "When the user peeks the next NAL unit, a SEI is handed out only if that NAL unit is the first slice of a picture; otherwise nothing is handed out and nothing is lost.", "quantifier": "every peeked NAL unit and every session state", "why_tests_cant": "Universal over NAL unit content and state.", "anchors": ["lib/src/signed_video_h26x_sign.c: signed_video_get_sei"]}
{"id": "C34", "title": "The signed GOP hash commits to all NAL units of the GOP in order", "statement": "The GOP hash in the n-th SEI is the hash of the concatenated hashes of exactly the protected NAL units added since the previous SEI, in order, and the count in the SEI is their number modulo 2^16.", "quantifier": "every sequence of NAL units given for signing, any GOP length, also when the hash list overflows", "why_tests_cant": "GOP length is unbounded; list overflow and counter wrap occur only in long GOPs.", "anchors": ["lib/src/signed_video_h26x_sign.c: signed_video_add_nalu_part_for_signing_with_timestamp, generate_sei_nalu", "lib/src/signed_video_h26x_common.c: hash_and_add, check_and_copy_hash_to_hash_list, update_num_nalus_in_gop_hash"]}
{"id": "C35", "title": "GOPs are chained", "statement": "The linked hash in each SEI is the hash of the first NAL unit of the GOP before the one being signed (all zero for the first), so reordering or dropping whole GOPs changes a signed value.", "quantifier": "every sequence of GOPs", "why_tests_cant": "History property over unbounded numbers of GOPs.", "anchors": ["lib/src/signed_video_h26x_common.c: update_linked_hash", "lib/src/signed_video_h26x_sign.c: signed_video_add_nalu_part_for_signing_with_timestamp", "lib/src/signed_video_tlv.c: encode_general"]}
{"id": "C36", "title": "The GOP counter increases by one per SEI", "statement": "Consecutive SEIs carry consecutive GOP counters modulo 2^32, except that golden SEIs do not consume one.", "quantifier": "every signing history", "why_tests_cant": "History property with wrap around.", "anchors": ["lib/src/signed_video_tlv.c: encode_general", "lib/src/signed_video_h26x_sign.c: generate_sei_nalu"]}
{"id": "C37", "title": "Splitting a NAL unit into parts does not matter", "statement": "Passing a NAL unit to the signer in consecutive parts gives the same hash as passing it at once.", "quantifier": "every NAL unit and every way of cutting it into non empty parts; cuts inside trailing zeros excepted", "why_tests_cant": "Universal over content and cut positions.", "anchors": ["lib/src/signed_video_h26x_sign.c: signed_video_add_nalu_part_for_signing_with_timestamp", "lib/src/signed_video_h26x_common.c: update_hash, simply_hash, get_hash_wrapper"]}
{"id": "C38", "title": "Hash list never overflows and falls back to GOP level", "statement": "The list of NAL unit hashes never exceeds its configured size; when a GOP does not fit, the SEI contains no list at all rather than a truncated one, and the next GOP starts with an empty list.", "quantifier": "every GOP length, hash size and configured list size", "why_tests_cant": "Needs an invariant over unbounded GOPs.", "anchors": ["lib/src/signed_video_h26x_common.c: check_and_copy_hash_to_hash_list, set_hash_list_size", "lib/src/signed_video_tlv.c: encode_hash_list", "lib/src/signed_video_h26x_sign.c: generate_sei_nalu"]}
{"id": "C39", "title": "Recurrent data appears at the configured interval", "statement": "Recurrent data (public key, product info, crypto info) is present in the first SEI and in every SEI generated after a frame whose index is a multiple of the recurrence interval since the last completed SEI.", "quantifier": "every recurrence interval, frame sequence and signing delay", "why_tests_cant": "History property relating frame counter and asynchronous completion.", "anchors": ["lib/src/signed_video_h26x_sign.c: signed_video_add_nalu_part_for_signing_with_timestamp, complete_sei_nalu_and_add_to_prepend", "lib/src/signed_video_tlv.c: tlv_list_encode_or_get_size"]}
{"id": "C40", "title": "Settings that would break a running session are refused", "statement": "Changing the hash algorithm or the golden SEI mode after signing started, setting a public key after validation started or when one exists, a recurrence below one and an authenticity level out of range are refused and leave the session unchanged.", "quantifier": "every session state and argument", "why_tests_cant": "Universal over states and arguments.", "anchors": ["lib/src/signed_video_h26x_sign.c: signed_video_set_hash_algo, signed_video_set_using_golden_sei, signed_video_set_recurrence_interval_frames, signed_video_set_authenticity_level", "lib/src/signed_video_h26x_auth.c: signed_video_set_public_key"]}
{"id": "C41", "title": "OK means verified", "statement": "If a validation reports OK (or OK with missing info), the signature of the SEI used verified with the current public key over the SEI bytes, and every NAL unit marked valid in that validation has a hash that is committed to by that SEI.", "quantifier": "every history of NAL units, every attacker supplied SEI content", "why_tests_cant": "Soundness quantifies over all adversarial inputs and histories.", "anchors": ["lib/src/signed_video_h26x_auth.c: verify_hashes_with_sei, verify_hashes_with_hash_list, validate_authenticity, prepare_for_validation, set_validation_status_of_pending_items_used_in_gop_hash"]}
{"id": "C42", "title": "A modified, removed, added or reordered NAL unit is detected", "statement": "If the NAL units of a GOP received by the validator differ in any way from those signed, the GOP is not reported OK, unless two different inputs with the same hash were met.", "quantifier": "every pair of signed and received GOPs", "why_tests_cant": "Adversarial modification space is infinite.", "anchors": ["lib/src/signed_video_h26x_auth.c: prepare_for_link_and_gop_hash_verification, verify_gop_hash, verify_linked_hash, verify_hashes_with_sei"]}
{"id": "C43", "title": "Hash list matching is order preserving", "statement": "When individual hashes are used, the NAL units marked valid match an order preserving selection of the signed hashes, NAL units not found are marked invalid, and gaps are reported as missing.", "quantifier": "every list of signed hashes and every list of received hashes", "why_tests_cant": "Greedy matching over two unbounded lists.", "anchors": ["lib/src/signed_video_h26x_auth.c: verify_hashes_with_hash_list"]}
{"id": "C44", "title": "An untouched stream validates OK", "statement": "A stream signed by the library and delivered unmodified is validated with every GOP OK, no missing NAL units and nothing invalid.", "quantifier": "every sequence of NAL units that forms GOPs, any GOP lengths, any number of GOPs", "why_tests_cant": "Completeness over unbounded streams and the interplay of two state machines.", "anchors": ["lib/src/signed_video_h26x_sign.c: signed_video_add_nalu_for_signing", "lib/src/signed_video_h26x_auth.c: signed_video_add_nalu_and_authenticate, maybe_validate_gop, has_pending_gop"]}
{"id": "C45", "title": "A stream without Signed Video SEIs is reported as not signed", "statement": "As long as no Signed Video SEI is received, every report says NOT SIGNED, nothing is marked valid or invalid, and all protected NAL units are reported as pending.", "quantifier": "every stream without Signed Video SEIs", "why_tests_cant": "Universal over streams.", "anchors": ["lib/src/signed_video_h26x_auth.c: maybe_validate_gop, has_pending_gop", "lib/src/signed_video_authenticity.c: signed_video_get_authenticity_report"]}
{"id": "C46", "title": "Validation always terminates", "statement": "Adding a NAL unit for validation performs finitely many GOP validations: every round of the validation loop makes progress or stops.", "quantifier": "every list content and state", "why_tests_cant": "Termination is not testable.", "anchors": ["lib/src/signed_video_h26x_auth.c: maybe_validate_gop, has_pending_gop, verify_hashes_without_sei"]}
{"id": "C47", "title": "Several GOPs in one report give the worst verdict", "statement": "If one call validates several GOPs, the reported verdict is not better than the worst verdict among them.", "quantifier": "every sequence of GOP verdicts within one call", "why_tests_cant": "Universal over sequences.", "anchors": ["lib/src/signed_video_h26x_auth.c: validate_authenticity"]}
{"id": "C48", "title": "A changed public key makes the report NOT OK", "statement": "If a SEI brings a public key different from the one in use, the validation using that SEI is reported NOT OK and flagged.", "quantifier": "every pair of keys and every state", "why_tests_cant": "Universal over states; the flag is reset between GOPs validated in one call.", "anchors": ["lib/src/signed_video_tlv.c: decode_public_key", "lib/src/signed_video_h26x_auth.c: prepare_for_validation, validate_authenticity"]}
{"id": "C49", "title": "Lost SEIs are detected by the counter", "statement": "Once in sync, a received GOP counter larger than the expected one is reported as a lost SEI, and an equal one is not.", "quantifier": "all pairs of counters, including wrap around", "why_tests_cant": "2^64 pairs; signed overflow in the comparison.", "anchors": ["lib/src/signed_video_h26x_auth.c: detect_lost_sei, decode_sei_data, validate_authenticity"]}
{"id": "C50", "title": "Reset gives a fresh session", "statement": "After reset, the verdicts for any stream are the same as those of a newly created session with the same settings.", "quantifier": "every history before reset and every stream after it", "why_tests_cant": "Quantifies over histories. (False in parts: counters and public key survive; shown by witness, with what does hold.)", "anchors": ["lib/src/signed_video_h26x_common.c: signed_video_reset, gop_info_reset, validation_flags_init"]}
{"id": "C51", "title": "Non protected NAL units do not influence verdicts", "statement": "Inserting or removing access unit delimiters, parameter sets or other unprotected NAL units changes neither the verdict nor the status of any protected NAL unit.", "quantifier": "every stream and every position of insertion", "why_tests_cant": "Non interference over all streams.", "anchors": ["lib/src/signed_video_h26x_auth.c: has_pending_gop, prepare_for_link_and_gop_hash_verification, validation_is_feasible", "lib/src/signed_video_h26x_common.c: gop_state_update"]}
{"id": "C52", "title": "Axis attestation record is parsed exactly", "statement": "An attestation report is accepted only if its length is exactly what its header announces; the decoded fields are the encoded ones; an attestation once stored is never replaced by a different one.", "quantifier": "every byte string and every sequence of received attestations", "why_tests_cant": "Universal over adversarial inputs and histories.", "anchors": ["lib/vendors/axis-communications/sv_vendor_axis_communications.c: deserialize_attestation, encode_axis_communications_handle, decode_axis_communications_handle, sv_vendor_axis_communications_set_attestation_report"]}
{"id": "C53", "title": "Public key verdict of the vendor check", "statement": "The Axis public key validation is OK only if the attestation parsed, the certificate chain was accepted and the attestation signature over the key verified.", "quantifier": "every outcome of the three checks in every history", "why_tests_cant": "The verdict is combined by bitwise operations on tri-state integers over repeated calls.", "anchors": ["lib/vendors/axis-communications/sv_vendor_axis_communications.c: verify_axis_communications_public_key, set_axis_communications_public_key, get_axis_communications_supplemental_authenticity", "lib/src/signed_video_h26x_auth.c: prepare_for_validation"]}
{"id": "C54", "title": "Detection of lost SEIs has defined behaviour", "statement": "Comparing the received GOP counter with the expected one does not overflow a signed integer.", "quantifier": "all pairs of counters", "why_tests_cant": "Signed overflow is undefined in C but usually invisible in a test run.", "anchors": ["lib/src/signed_video_h26x_auth.c: detect_lost_sei"]}
{"id": "C55", "title": "The vendor check reads only a live public key", "statement": "When the vendor check hashes the public key, the key it was given has not been freed.", "quantifier": "every sequence of received SEIs, keys set by the user and checks", "why_tests_cant": "The vendor keeps a raw pointer that the library frees on the next key; the freed memory is usually still readable. (False in parts: witnesses.)", "anchors": ["lib/vendors/axis-communications/sv_vendor_axis_communications.c: set_axis_communications_public_key, verify_axis_communications_public_key", "lib/src/signed_video_tlv.c: decode_public_key"]}
{"id": "C56", "title": "A refused vendor record leaves no trace", "statement": "If a received vendor record is refused, the vendor handle is unchanged and no byte outside the record was read.", "quantifier": "every record and every state of the handle", "why_tests_cant": "Universal over adversarial records; the effect of a bad record shows only in later ones. (False in parts: witnesses.)", "anchors": ["lib/vendors/axis-communications/sv_vendor_axis_communications.c: decode_axis_communications_handle"]}
{"id": "C57", "title": "A validator that joins a stream catches up", "statement": "A validator that starts to receive an untouched signed stream somewhere in the middle reports OK for every GOP that it receives completely, from the second SEI on at the latest.", "quantifier": "every stream, every point at which the stream is joined, any GOP lengths and any number of GOPs after it", "why_tests_cant": "The state left behind by the first, unsuccessful validation differs for every position and stays in the list; tests join at a few positions only. (False in parts: witness.)", "anchors": ["lib/src/signed_video_h26x_auth.c: validate_authenticity, maybe_validate_gop, has_pending_gop", "lib/src/signed_video_h26x_nalu_list.c: h26x_nalu_list_remove_missing_items"]}
{"id": "C58", "title": "Older format: a NAL unit marked authentic was covered by a verified signature", "statement": "In a session that has switched to the older format, each NAL unit that a report shows with '.' got this mark in a validation for which the signature over the decoded SEI verified with the key of the session, and its hash is in the verified list, or it went into the verified GOP hash, or it is the SEI that was verified.", "quantifier": "every history of calls, every stream, every key and signature", "why_tests_cant": "Marks are given in a loop that runs over several GOPs and stay in the list over several calls; a test sees the mark, not where it comes from. (False in parts: witnesses.)", "anchors": ["lib/src/legacy/legacy_h26x_auth.c: legacy_verify_hashes_with_hash_list, legacy_verify_hashes_with_gop_hash, legacy_maybe_validate_gop", "lib/src/signed_video_h26x_auth.c: reregister_nalus"]}
{"id": "C59", "title": "Older format: OK means verified", "statement": "In a session that has switched to the older format, a report says OK, or OK with missing NAL units, only if a signature was verified in the validation that it reports.", "quantifier": "every history of calls, every stream, every result of the verification", "why_tests_cant": "Quantifies over adversarial streams. (False in parts: witnesses.)", "anchors": ["lib/src/legacy/legacy_h26x_auth.c: legacy_validate_authenticity, legacy_verify_hashes_without_sei, legacy_prepare_for_validation"]}
{"id": "C60", "title": "Older format: sessions are memory safe", "statement": "No sequence of NAL units makes a session that has switched to the older format read freed memory or memory out of bounds.", "quantifier": "every sequence of NAL units", "why_tests_cant": "Depends on the order of the NAL units; a dangling pointer is often still readable in a test run. (False: witness.)", "anchors": ["lib/src/legacy/legacy_h26x_auth.c: legacy_sv_add_h26x_nalu, legacy_verify_hashes_with_hash_list", "lib/src/legacy/legacy_h26x_nalu_list.c: legacy_h26x_nalu_list_copy_last_item, legacy_h26x_nalu_list_add_missing"]}
{"id": "C61", "title": "Older format: a validator that joins a stream catches up", "statement": "A validator that starts to receive an untouched stream of the older format at the start of a GOP reports OK from the third SEI on at the latest.", "quantifier": "every stream and every GOP at which it is joined", "why_tests_cant": "Tests join at a few positions only. (False: witness.)", "anchors": ["lib/src/legacy/legacy_h26x_auth.c: legacy_validate_authenticity, legacy_has_pending_gop", "lib/src/legacy/legacy_h26x_nalu_list.c: legacy_h26x_nalu_list_remove_missing_items"]}
{"id": "C62", "title": "Older format: reset gives a fresh session", "statement": "After a reset, a session that has validated a stream of the older format validates a stream of the newer format as a new session does.", "quantifier": "every history before the reset and every stream after it", "why_tests_cant": "Quantifies over histories. (False: witness.)", "anchors": ["lib/src/signed_video_h26x_common.c: signed_video_reset", "lib/src/legacy/legacy_h26x_common.c: legacy_sv_reset", "lib/src/signed_video_h26x_auth.c: signed_video_add_nalu_and_authenticate"]}
{"id": "C63", "title": "Older format: one bad SEI does not stop the validation", "statement": "After a SEI that cannot be decoded, later GOPs of a stream of the older format are validated.", "quantifier": "every position of the bad SEI and every stream that follows", "why_tests_cant": "Quantifies over everything that may follow. (False: witness with every continuation.)", "anchors": ["lib/src/legacy/legacy_h26x_auth.c: legacy_prepare_for_validation, legacy_maybe_validate_gop", "lib/src/legacy/legacy_tlv.c: legacy_decode_general"]}
{"id": "C64", "title": "A refused private key leaves signing as it was", "statement": "If a private key is refused, the session goes on as if it had not been given: the same signatures are handed out for the same hashes.", "quantifier": "every history of keys, hashes and fetched signatures", "why_tests_cant": "Tests set a bad key once, and do not go on to sign with the key set before. (False in parts: witness with every continuation.)", "anchors": ["lib/src/signed_video_openssl.c: openssl_private_key_malloc", "lib/src/signed_video_h26x_sign.c: signed_video_set_private_key_new"]}
{"id": "C65", "title": "Changing the private key keeps signatures and hashes in step", "statement": "The signatures handed out are, in order and without gaps, signatures of the accepted hashes, each with the key that was in force when the hash was accepted; the public key of the session belongs to the private key accepted last.", "quantifier": "every history of keys, hashes and fetched signatures", "why_tests_cant": "Needs a key change while signatures are pending. (False in parts: witness.)", "anchors": ["lib/src/signed_video_h26x_sign.c: signed_video_set_private_key_new, get_signature_complete_sei_and_add_to_prepend", "lib/plugins/unthreaded-signing/plugin.c: sv_signing_plugin_session_setup, sv_signing_plugin_get_signature", "lib/src/signed_video_openssl.c: openssl_read_pubkey_from_private_key"]}
{"id": "C66", "title": "Hashes in one go and bit by bit agree", "statement": "A hash that is computed in one go and one that is computed bit by bit, in either of the two contexts, are both the hash of the bytes given with the algorithm in force.", "quantifier": "every sequence of calls on a cryptographic handle, with both contexts interleaved", "why_tests_cant": "The algorithm is set in one place and remembered in two contexts that are created later; tests do not interleave. (False in parts: witnesses.)", "anchors": ["lib/src/signed_video_openssl.c: openssl_init_hash, openssl_update_hash, openssl_finalize_hash, openssl_hash_data, openssl_set_hash_algo, openssl_set_hash_algo_by_encoded_oid"]}
{"id": "C67", "title": "The path of a generated key stays within its memory", "statement": "The path of a generated key is the directory, a slash unless there is one, and the file name, and no byte outside of the strings and the allocated memory is read or written.", "quantifier": "every directory and file name", "why_tests_cant": "Universal over strings; a read of one byte in front of a string goes unnoticed. (False in parts: the empty directory.)", "anchors": ["lib/src/signed_video_openssl.c: get_path_to_key"]}
{"id": "C68", "title": "The memory of private keys is freed exactly once", "statement": "Whatever keys are set, no memory that belongs to a key or signature is freed twice or written out of bounds, and none is left when the session is closed.", "quantifier": "every history of keys, hashes and fetched signatures, followed by closing the session", "why_tests_cant": "Needs keys set repeatedly, with failures at every stage of setting them. (False in parts: witness.)", "anchors": ["lib/src/signed_video_openssl.c: openssl_private_key_malloc, openssl_read_pubkey_from_private_key", "lib/src/signed_video_h26x_sign.c: signed_video_set_private_key_new", "lib/src/signed_video_h26x_common.c: signed_video_free", "lib/plugins/unthreaded-signing/plugin.c: sv_signing_plugin_session_teardown"]}
{"id": "C69", "title": "Older format: the hashes behind a mark are those of what was received", "statement": "In a session that has switched to the older format, under the conditions that hashes have 32 bytes, that verifying a signature gives 'valid' or 'invalid', and that no call has returned 'not supported' or 'invalid parameter', each NAL unit that a report shows with '.' is vouched for by a SEI among the NAL units received: the key in use verified its signature against the hash of the bytes received of the SEI, and a hash of the bytes received of the NAL unit is in its list; or against the GOP hash of hashes of the bytes received of different NAL units, one of them this, and of the SEI; or the NAL unit is that SEI.", "quantifier": "every history of calls, every stream, every key and signature", "why_tests_cant": "Hashes are stored with items, items are changed by later calls and replayed from the newer session; a test does not see which bytes a stored hash stands for.", "anchors": ["lib/src/legacy/legacy_h26x_common.c: legacy_hash_and_add_for_auth", "lib/src/legacy/legacy_h26x_auth.c: legacy_verify_hashes_with_hash_list, legacy_verify_hashes_with_gop_hash, legacy_maybe_validate_gop", "lib/src/signed_video_h26x_auth.c: reregister_nalus"]}
{"id": "C70", "title": "The total result of a report is that of the reports handed out", "statement": "A report that is handed out or fetched at any time contains as its total result that of the reports handed out since the last reset: the worst verdict since the last report without one, whether any report told of a changed key, the verdict on the key, and the first and last time stamps. A report fetched right after one was handed out says the same, and a call that hands out no report leaves the latest validation of a fetched report as it was.", "quantifier": "every history of NAL units, keys, resets and fetched reports", "why_tests_cant": "The total result is updated incrementally in another place than the latest one, and a report can be fetched between any two calls, also after errors. (False in parts: witness.)", "anchors": ["lib/src/signed_video_authenticity.c: signed_video_get_authenticity_report, update_accumulated_validation, transfer_authenticity", "lib/src/signed_video_h26x_auth.c: signed_video_add_nalu_and_authenticate", "lib/src/legacy/legacy_h26x_auth.c: legacy_sv_add_nalu_and_authenticate"]}
{"id": "C71", "title": "Golden SEIs are told from others", "statement": "For a SEI that the library generated, the answer to 'is this a golden SEI' is yes exactly if it was generated as one, also after emulation prevention was added or with zero bytes appended; and whatever gets the answer yes is a SEI with the identifier of Signed Video and the flag of a golden SEI.", "quantifier": "every contents of a SEI, codec and setting, every number of appended zero bytes; every byte string for the second part", "why_tests_cant": "The answer depends on counting emulation prevention bytes from sizes and the last byte; contents that look like emulation prevention make the difference. (False in parts: witness.)", "anchors": ["lib/src/signed_video_h26x_common.c: signed_video_is_golden_sei, parse_nalu_info, remove_epb_from_sei_payload"]}
{"id": "C72", "title": "Memory of authenticity reports", "statement": "In any sequence of creating the local report, setting and decoding product information, decoding the version, updating and resetting the validation, handing out reports and freeing them, with any of the allocations failing: no block is freed twice, used after being freed, or accessed outside of its bounds; a report handed out reads as the local report did when it was asked for (an empty text for NULL) and does not change until the user frees it; if memory is short nothing is handed out and all texts are as before; when the session is closed only the blocks of reports not yet freed remain.", "quantifier": "for all sequences of operations, all texts and all outcomes of allocations (for safety: the two allocations for version strings of a report succeed; the full statement is false)", "why_tests_cant": "tests run with allocations that succeed and compare a few reports; sharing of a string between two reports, or a block lost on one of the many failure paths, shows only for particular sequences and failures", "anchors": ["lib/src/signed_video_authenticity.c: allocate_memory_and_copy_string, transfer_product_info, transfer_latest_validation, transfer_authenticity, latest_validation_init, authenticity_report_init, update_authenticity_report, signed_video_get_authenticity_report, create_local_authenticity_report_if_needed, signed_video_authenticity_report_create, signed_video_authenticity_report_free", "lib/src/signed_video_h26x_sign.c: signed_video_set_product_info", "lib/src/signed_video_tlv.c: decode_product_info, decode_general", "lib/src/signed_video_h26x_common.c: product_info_free_members, bytes_to_version_str"]}
{"id": "C73", "title": "Product information comes from signed SEIs", "statement": "The product information that a validating session reports is empty, or it was read from one record of a SEI that was handed to the session; if all reports say OK or SIGNATURE PRESENT and the summary says OK, the signature of this SEI holds. With the SEIs of one signing session it is what was set at the signing side.", "quantifier": "every history of NAL units, keys and resets, every content of SEIs, every signature scheme", "why_tests_cant": "Product information is stored while a SEI is decoded, before its signature is checked, by four different paths (validation, golden SEIs, search for the public key, decoding that fails); tests compare the product information of intact streams only. (False in parts: witness.)", "anchors": ["lib/src/signed_video_tlv.c: decode_product_info, tlv_decode, tlv_find_and_decode_optional_tags", "lib/src/signed_video_h26x_auth.c: decode_sei_data, prepare_for_validation, prepare_golden_sei, is_recurrent_data_decoded, validate_authenticity", "lib/src/signed_video_authenticity.c: signed_video_get_authenticity_report, transfer_product_info"]}
{"id": "C74", "title": "Damage to a stream is contained", "statement": "If a validator that knows the key receives a signed stream in which NAL units of some GOPs were changed, removed, added or reordered, while the SEIs arrive unchanged and in order, each after its GOP, then no call fails, and every GOP that came as it was signed, together with the intra picture its SEI refers to, is reported OK with none of its NAL units marked as invalid, missing or erroneous, whatever happened to the GOPs before and after it. At authenticity level GOP, without hash collisions, all other GOPs are reported NOT OK.", "quantifier": "every signed stream, every change between the intra pictures, any number of damaged GOPs, any delay of the SEIs, every GOP length", "why_tests_cant": "Validation carries the linked hash, the counter, pending NAL units and the state of the first validation from one GOP to the next; tests damage one GOP of a few short streams and cannot show that none of this spreads.", "anchors": ["lib/src/signed_video_h26x_auth.c: validate_authenticity, verify_linked_hash, verify_gop_hash, verify_hashes_with_hash_list, verify_hashes_with_sei, remove_used_in_gop_hash, prepare_for_validation, maybe_validate_gop", "lib/src/signed_video_h26x_nalu_list.c: h26x_nalu_list_add_missing, h26x_nalu_list_get_stats, h26x_nalu_list_clean_up"]}
{"id": "C75", "title": "With lists of hashes, reports say what happened to each GOP", "statement": "If a validator that knows the key receives, instead of a stream signed at authenticity level frame, one in which NAL units of some GOPs were changed, removed, added or reordered, while the SEIs arrive unchanged and in order, then the report on each GOP whose list of hashes is complete says what happened: OK if the GOP came as signed; OK with missing information if NAL units are missing and nothing else is wrong, with the number sent, the number received, and as many items marked as missing and none as invalid; NOT OK otherwise.", "quantifier": "every signed stream, every change between the intra pictures, any number of damaged GOPs, every hash function without collisions among the inputs", "why_tests_cant": "The order of matched hashes decides which items count as missing, inserted or invalid, and the state is carried from GOP to GOP; tests remove or change one or two NAL units at chosen places. (False for an intra picture that consists of two hashes: witness.)", "anchors": ["lib/src/signed_video_h26x_auth.c: verify_hashes_with_hash_list, verify_hashes_with_sei, verify_linked_hash, verify_gop_hash, validate_authenticity, remove_used_in_gop_hash", "lib/src/signed_video_h26x_nalu_list.c: h26x_nalu_list_add_missing, h26x_nalu_list_get_stats", "lib/src/signed_video_h26x_common.c: hash_and_add, hash_with_reference, update_gop_hash", "lib/src/signed_video_h26x_sign.c: generate_sei_nalu"]}
{"id": "C76", "title": "Older format: an untouched stream validates OK", "statement": "If a stream signed with the older format is received from its start as it was sent (GOPs numbered one by one; each SEI signs the NAL units of the GOP before it and the first one of its own, by a list of hashes or by a GOP hash; other NAL units anywhere), and the validator has the hash of the stream, of 32 bytes, as its default, then no call returns an error, the first NAL unit of each GOP triggers a report that all NAL units of the GOP before it and the SEI are OK (latest and accumulated verdict, numbers expected, received and pending, validation string), and no other call after the first SEI makes a report.", "quantifier": "every number and size of GOPs, every content, both signing variants in any mixture, both versions of the general tag, H.264 and H.265", "why_tests_cant": "The round of the older format depends on the state left by the GOP before it (reference hash, two hashes of the I-frame, counters, the NAL unit that is pending on), and on the replay of the NAL units received before the format was recognised; tests run a few short streams recorded once.", "anchors": ["lib/src/legacy/legacy_h26x_auth.c: legacy_sv_add_nalu_and_authenticate, legacy_maybe_validate_gop, legacy_prepare_for_validation, legacy_verify_hashes_with_hash_list, legacy_verify_hashes_with_gop_hash, legacy_compute_gop_hash", "lib/src/legacy/legacy_h26x_common.c: legacy_sv_create, legacy_hash_and_add_for_auth", "lib/src/legacy/legacy_tlv.c: legacy_decode_general", "lib/src/signed_video_h26x_auth.c: reregister_nalus, signed_video_add_nalu_and_authenticate"]}
{"id": "C77", "title": "Older format: alterations are reported where they are", "statement": "If NAL units of a stream signed with the older format are changed, added or removed (the SEIs being GOP-hash ones where something is altered, each GOP still starting with an intra picture, the first SEI matching), no call returns an error; the report on a GOP is NOT OK, with all received NAL units of the GOP and the SEI marked as not OK and as many items marked missing as were sent but not received, exactly if one of its NAL units or the first one of the next GOP is not the one sent; the report on the next GOP is NOT OK with one NAL unit marked if nothing else is wrong with it; later GOPs are OK again, while the overall verdict stays NOT OK.", "quantifier": "every signed stream of the older format, any number of altered GOPs, every change, removal and addition, every hash without collisions among the inputs, H.264 and H.265", "why_tests_cant": "The marks that a failed round leaves on the NAL unit two GOPs have in common, the items inserted for missing NAL units and the counters are carried to the next round; tests alter one NAL unit of a few short streams.", "anchors": ["lib/src/legacy/legacy_h26x_auth.c: legacy_maybe_validate_gop, legacy_verify_hashes_with_gop_hash, legacy_verify_hashes_with_hash_list, legacy_compute_gop_hash, legacy_remove_used_in_gop_hash", "lib/src/legacy/legacy_h26x_nalu_list.c: legacy_h26x_nalu_list_add_missing, legacy_h26x_nalu_list_get_stats, legacy_h26x_nalu_list_clean_up", "lib/src/legacy/legacy_h26x_common.c: legacy_hash_and_add_for_auth"]}
{"id": "C78", "title": "Older format: a session can start in the middle of a stream", "statement": "If a session starts in the middle of a stream signed with the older format, at a SEI that has the public key, then no call returns an error; the first report says SIGNATURE PRESENT with no numbers of NAL units, none marked as OK, not OK or missing, and one pending; each later GOP is reported as if the validation had started with the stream, and neither the verdicts nor the overall verdict suffer from what was not received. The same is expected of a session that starts with the very first SEI when the first intra picture is not the one that was signed.", "quantifier": "every signed stream of the older format, every GOP to start with, both signing variants in any mixture, later alterations as for the claim before, H.264 and H.265", "why_tests_cant": "The first round fails by design and has to be taken back completely (marks on items, inserted items, the verdict, counters and the state of the synchronisation); what is left over shows only in later GOPs. (False for the very first SEI: witness, no GOP is OK any more.)", "anchors": ["lib/src/legacy/legacy_h26x_auth.c: legacy_validate_authenticity, legacy_maybe_validate_gop, legacy_verify_hashes_with_hash_list, legacy_verify_hashes_with_gop_hash", "lib/src/legacy/legacy_h26x_nalu_list.c: legacy_h26x_nalu_list_remove_missing_items, legacy_h26x_nalu_list_add_missing, legacy_h26x_nalu_list_clean_up"]}
{"id": "C79", "title": "A generated private key is where it was asked for, or nowhere", "statement": "If the generation of a private key returns SV_OK, the new key is in the file in the directory given and in the memory handed out, as far as asked for; if it returns an error, no new key is in either. No other file is changed, and whatever fails, all memory, files and objects of OpenSSL but the key that is handed out are released.", "quantifier": "every algorithm, directory, combination of arguments, state of the files, and every combination of failures of memory allocation, OpenSSL and the file system", "why_tests_cant": "Tests do not make allocation, opening, writing or closing of a file fail. (False in parts: witnesses.)", "anchors": ["lib/src/signed_video_openssl.c: write_private_key_to_file, write_private_key_to_buffer, create_rsa_private_key, create_ecdsa_private_key, get_path_to_key, signed_video_generate_ecdsa_private_key, signed_video_generate_rsa_private_key, signed_video_generate_private_key", "lib/src/includes/signed_video_openssl.h: 137-198"]}
{"id": "C80", "title": "A lost SEI is blamed on the NAL units it signs, and on no others", "statement": "If a validator that knows the key receives a signed stream in which nothing is changed except that SEIs are lost, then no call fails; each SEI whose predecessor was received gives a report that its GOP is OK; the first SEI after a loss gives the report NOT OK, with exactly the NAL units of the GOPs without a SEI marked as invalid, all those of its own GOP marked as valid and none as missing; and from the next GOP on every report is OK.", "quantifier": "every signed stream, any number of lost SEIs in a row, any number of losses, any delay of the SEIs, every GOP length, both authenticity levels", "why_tests_cant": "The end of a GOP without SEI is found by a scan that depends on the marks left by earlier rounds and on the NAL units directly before the next intra picture, once per lost SEI within the same call; tests lose one or two SEIs of streams without access unit delimiters. (False with access unit delimiters, and if the first SEI is lost: witnesses.)", "anchors": ["lib/src/signed_video_h26x_auth.c: verify_hashes_without_sei, detect_lost_sei, prepare_for_validation, validate_authenticity, verify_linked_hash, maybe_validate_gop, has_pending_gop", "lib/src/signed_video_h26x_nalu_list.c: h26x_nalu_list_get_stats, h26x_nalu_list_clean_up"]}
{"id": "C81", "title": "The threaded signing plugin can be started, used and stopped in any interleaving", "statement": "If a program starts the threaded signing plugin with a central thread, and calls exit only after init has returned and not while another exit is in progress, then whatever the sessions and the worker do in between: nothing is undefined (no memory used after it was freed, no assertion violated), nobody sleeps who has something to do, exit returns once the worker and then the caller run, after exit or a failed init no thread, key, hash or signature is left so that the plugin can be started again, and each signature handed to a session was made from a hash this session submitted, with the key given when the plugin was last started.", "quantifier": "every interleaving of any number of sessions, calls and steps of the worker, any number of starts and stops, every choice of who is woken by a signal, every failure of allocation, thread creation and signing; fewer than 2^32 sessions for the last part", "why_tests_cant": "Lost wake-ups and uses after free depend on the interleaving; tests run one schedule and start the plugin once. (False for overlapping calls of exit, and for exit during init: witnesses.)", "anchors": ["lib/plugins/threaded-signing/plugin.c: central_worker_thread, central_setup, central_teardown, local_teardown_locked, buffer_reset, is_active, append_item, delete_item, sign_hash, get_signature, free_plugin, sv_signing_plugin_init, sv_signing_plugin_init_new, sv_signing_plugin_exit, sv_signing_plugin_session_setup, sv_signing_plugin_session_teardown"]}
{"id": "C82", "title": "The threaded signing plugin returns all its memory", "statement": "Whatever sessions are set up and torn down, with their own threads or with a central one, whatever is signed and fetched and whichever allocation, key or thread fails, the threaded signing plugin frees nothing twice and does not use key data that are not there; each block it has allocated is referred to exactly once; and once it is stopped and all sessions are torn down, no memory is left.", "quantifier": "every history of calls and worker steps, any number of sessions, every failure of allocation, key and thread creation, sessions torn down before or after the plugin is stopped, any number of starts", "why_tests_cant": "Tests do not make allocations or threads fail, and do not count what is left after a failed set up. (False: a session that cannot be set up leaks its thread data; witness, and proof that this is the only leak.)", "anchors": ["lib/plugins/threaded-signing/plugin.c: sign_data_create, sign_data_free, free_buffers, free_plugin, sign_hash, central_worker_thread, local_worker_thread, central_setup, central_teardown, append_item, delete_item, local_setup, local_teardown_locked, sv_signing_plugin_session_setup, sv_signing_plugin_session_teardown, sv_signing_plugin_init, sv_signing_plugin_init_new, sv_signing_plugin_exit", "lib/src/signed_video_openssl.c: openssl_private_key_malloc, openssl_free_key"]}
{"id": "C83", "title": "The memory given for a SEI is large enough", "statement": "If a user asks signed_video_get_sei for the size of the SEI, allocates that much and later fetches the SEI, then the SEI that is handed out has exactly this size, whatever is added and whatever signatures arrive in between. signed_video_get_nalu_to_prepend, which does both itself, does not write outside of what it allocates.", "quantifier": "every hash function, every history of calls and settings, every time at which signatures arrive, any number of calls between the two questions, H.264 and H.265; plugins that give no signature without a hash and none that is empty", "why_tests_cant": "The size is that of one SEI of a buffer which changes with each signature that arrives and each SEI that is generated; tests ask for the size directly before they fetch the SEI, and with plugins for which nothing arrives in between. (False for signed_video_get_nalu_to_prepend: it fetches signatures twice and writes the latest SEI; witness.)", "anchors": ["lib/src/signed_video_h26x_sign.c: signed_video_get_sei, get_latest_sei, signed_video_get_nalu_to_prepend, get_signature_complete_sei_and_add_to_prepend, shift_sei_buffer_at_index"]}
{"id": "C84", "title": "An encoder can write the SEI itself, from its payload", "statement": "The payload offset given with a SEI is where its payload begins, with the UUID. If the SEI was generated without emulation prevention, an encoder that takes the bytes from there but the last, and writes a SEI with user data itself - header, size, emulation prevention and stop bit according to the video standards - produces a NAL unit that is the same for the validator as the one handed out, including the bytes that are hashed for the signature.", "quantifier": "every session, product information, user data, hash list, signature and size of the payload, H.264 and H.265", "why_tests_cant": "The size field has a length that depends on the payload, and emulation prevention depends on zeros in hashes and signatures; tests use the offset for one SEI and do not write it again. (With emulation prevention by the library, the default, this is false: witness.)", "anchors": ["lib/src/signed_video_h26x_sign.c: signed_video_get_sei, generate_sei_nalu, complete_sei", "lib/src/signed_video_h26x_common.c: parse_nalu_info, h264_get_payload_size, remove_epb_from_sei_payload", "lib/src/includes/signed_video_sign.h: 277-300"]}
{"id": "C85", "title": "A session that cannot be made, and one that is freed, leave no memory behind", "statement": "Whichever call fails while a session is made, signed_video_create returns: either NULL, with the memory as before, or a session, and this exactly when everything but the list of NAL units could be made. Whatever hash algorithms the session is then given, by name, by OID or by a SEI, and whatever fails in these calls, nothing is freed twice, and signed_video_free leaves the memory as before the session was made.", "quantifier": "every combination of failures in making a session, with and without the Axis vendor code, every memory in use before, every history of setting hash algorithms and starting hashes, every failure in these", "why_tests_cant": "Tests do not make allocations fail, and do not look at the memory that is left. (False: data for signing and verification are used without a check of the allocation - proof of exactly when NULL is dereferenced - and each hash algorithm given as the text of an OID leaves an object behind; witnesses, and proof that there is nothing else.)", "anchors": ["lib/src/signed_video_h26x_common.c: signed_video_create, signed_video_free, sign_or_verify_data_create, sign_or_verify_data_free, product_info_create, product_info_free, gop_info_create, gop_info_free", "lib/src/signed_video_openssl.c: openssl_create_handle, openssl_free_handle, openssl_set_hash_algo, openssl_set_hash_algo_by_encoded_oid, obj_to_oid_and_type, oid_to_type, openssl_init_hash", "lib/vendors/axis-communications/sv_vendor_axis_communications.c: sv_vendor_axis_communications_setup, sv_vendor_axis_communications_teardown", "lib/src/signed_video_h26x_nalu_list.c: h26x_nalu_list_create, h26x_nalu_list_free"]}
{"id": "C86", "title": "A signature that cannot be made spoils only its own SEI", "statement": "If the hash of one SEI cannot be signed, every other SEI that is handed out still carries the signature of its own bytes. With the unthreaded plugin a hash that cannot be signed is refused at once and there is no SEI for it; with the threaded plugin, SEIs up to the first gap carry their own signatures.", "quantifier": "every history of calls of a session, every schedule of the plugin's thread and of other sessions, every set of hashes that cannot be signed, any length of the session", "why_tests_cant": "Signing does not fail in the tests, and SEIs are paired with signatures only by their order, so the effect of a failure shows in SEIs generated later. (False with the threaded plugin: its get_signature drops the failed entry and returns false without telling the session; proof that from then on every SEI of the session, for ever, carries the signature of a later SEI, and witness in which no call returns an error.)", "anchors": ["lib/plugins/threaded-signing/plugin.c: get_signature, central_worker_thread, sign_hash", "lib/plugins/unthreaded-signing/plugin.c: sv_signing_plugin_sign, sv_signing_plugin_get_signature", "lib/src/signed_video_h26x_sign.c: get_signature_complete_sei_and_add_to_prepend, complete_sei_nalu_and_add_to_prepend"]}
{"id": "C87", "title": "A session can go on with a stream signed by another kind of key", "statement": "What a session has validated before does not keep it from validating another stream after a reset: a stream that a new session validates without an error is validated without an error by a session that was reset, also if its signatures have another size.", "quantifier": "every history of calls before, any number of calls and resets after it, every stream, every size of signatures", "why_tests_cant": "Tests use one key per session and one size of signatures. (False: the first signature decoded fixes the size for the life of the session; proof that no history of calls, resets included, changes it, and that no validation due to a SEI with another size ever succeeds; witness in which each SEI of a stream that a new session reports OK is refused with SV_MEMORY.)", "anchors": ["lib/src/signed_video_tlv.c: decode_signature, tlv_decode", "lib/src/signed_video_h26x_common.c: signed_video_reset", "lib/src/signed_video_h26x_auth.c: prepare_for_validation, decode_sei_data, maybe_validate_gop"]}
{"id": "C88", "title": "What a session copies from SEIs is kept in its memory and freed with it", "statement": "Whatever public keys, signatures and arbitrary data a validating session copies from SEIs, in any order and of any size, and whichever allocation fails, nothing is written outside of the memory allocated for it, NULL is not dereferenced and nothing is freed twice; and signed_video_free leaves the memory as before.", "quantifier": "every history of records of any versions and sizes and of keys set by the user, every failure of allocations and of OpenSSL, every memory in use before", "why_tests_cant": "Tests do not make allocations fail, and the library has no function to send arbitrary data, so that no test receives them. (False twice: if the allocation for a key fails, the size of the old key is kept and a later key of that size is copied to NULL, proved for every history; and arbitrary data are never freed, proved for every history that ends with some; proof that there is nothing else.)", "anchors": ["lib/src/signed_video_tlv.c: decode_public_key, decode_arbitrary_data, decode_signature", "lib/src/signed_video_h26x_auth.c: signed_video_set_public_key", "lib/src/signed_video_openssl.c: openssl_public_key_malloc", "lib/src/signed_video_h26x_common.c: signed_video_free, sign_or_verify_data_free", "lib/src/legacy/legacy_tlv.c: legacy_decode_public_key, legacy_decode_arbitrary_data"]}
{"id": "C89", "title": "Whatever can be decoded can be printed", "statement": "In a build that prints SEIs, signed_video_parse_sei prints all records of a SEI up to the first that cannot be decoded, lists of hashes hash by hash with the hash size in force, and has no undefined behaviour that decoding the SEI does not have.", "quantifier": "every NAL unit of either codec, every table of hash algorithms, with and without the vendor code of Axis", "why_tests_cant": "The tests print only SEIs made by the library, which have their records in one order and hashes of common sizes, and do not look at what is printed. (False: a key after product information that names Axis dereferences NULL, as the session has no report; a hash algorithm without digest before a list of hashes reads far beyond the list; a full list of hashes of a size that does not divide the array is read beyond its end. Witnesses, and proof that there is nothing else in SEIs without vendor record.)", "anchors": ["lib/src/signed_video_h26x_common.c: signed_video_parse_sei, parse_nalu_info", "lib/src/signed_video_tlv.c: tlv_decode, decode_public_key, decode_hash_list, decode_crypto_info, decode_product_info", "lib/src/signed_video_openssl.c: oid_to_type, openssl_get_hash_size"]}
{"id": "C90", "title": "A golden SEI is generated on request only, and leaves the settings alone", "statement": "The SEI generated by a call is golden exactly if the call asks for a golden SEI, whatever failed before; the authenticity level that the user set holds for all other SEIs until the user sets another; and after a reset the settings that signing had frozen can be changed again.", "quantifier": "every sequence of calls of a signing session, with every failure of the signing plugin and resets at any place", "why_tests_cant": "Tests generate a golden SEI only at the beginning of a stream and never after a failed request, and the check that SEIs at GOP level have no list of hashes is not run on streams with a golden SEI. (The part about the level is false: a request for a golden SEI sets the level to frame and does not set it back.)", "anchors": ["lib/src/signed_video_h26x_sign.c: signed_video_generate_golden_sei, generate_sei_nalu, signed_video_set_authenticity_level, signed_video_set_using_golden_sei, signed_video_set_hash_algo", "lib/src/signed_video_h26x_common.c: signed_video_reset"]}
{"id": "C91", "title": "The first SEI after a reset can be validated on its own", "statement": "The first SEI that a signing session generates after a reset has the public key, the product information and the hash algorithm, as the first SEI of a new session has.", "quantifier": "every sequence of successful calls before and after the reset, every interval of recurrent data", "why_tests_cant": "Tests do not sign with an interval longer than one frame and do not reset a session that has signed. (False: the number of frames is not set back by a reset, so that with a longer interval the first SEI of the next stream may come without these data; with the interval one proved for every SEI of every session.)", "anchors": ["lib/src/signed_video_h26x_common.c: signed_video_reset, gop_info_reset", "lib/src/signed_video_h26x_sign.c: signed_video_add_nalu_part_for_signing_with_timestamp, generate_sei_nalu", "lib/src/signed_video_tlv.c: tlv_list_encode_or_get_size"]}
