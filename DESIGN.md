# Formal model of signed-video-framework

`/repo` is read as text only.  Everything below is Lean 4 (`/verif/lean`), checked by the kernel.

## Trusted base

* The Lean 4.33 kernel.  Theorems depend on at most `propext`, `Classical.choice`, `Quot.sound`
  (the gate replays every constant and lists axioms; no axiom is added, no `sorry`, no `native_decide`,
  no `bv_decide`).  Only the core library is used.
* The reading of the C code: the definitions in `lean/Verif/Model/*.lean` are written by hand, each with
  file and line of the C function it follows and the simplifications made.  As a check of this reading,
  `Props/AuthConform` runs the composed signer and validator on scenarios of the test suite of the
  repository and compares the reports with those expected there.  `Props/Recorded` and
  `Props/RecordedMore` run the model of the older format on four streams the project recorded with
  version 1.1.29 (`tests/check/legacy_test_data.c`; both codecs, GOP and frame level, RSA and ECDSA), with
  SHA-256 and the signature checks written out: every hash and signature the model computes agrees with
  the recording, and the reports are those the test `legacy_stream` expects.  These are tests, not proofs.
* Not modelled, taken as parameters (`Hashing`, `CryptoEnv`, `AuthEnv`, `AxEnv`):
  - the hash functions: any function from an algorithm identifier and bytes to bytes.  Where a theorem
    needs that two different inputs do not collide, this is a hypothesis about the inputs met in that run,
    not a global injectivity assumption (which no real hash satisfies);
  - `EVP_PKEY_verify` with its three outcomes (1 valid, 0 invalid, negative error), PEM parsing (which keys
    are accepted), the size of the digest that belongs to an object identifier, X.509 chains and the
    certificates of the Axis record;
  - signing: what the plugin returns is part of the history (`SCall`), for the plugins of the repository it
    comes from `Model/Unthreaded` and `Model/Threaded`;
  - memory allocation is assumed to succeed (except in `Model/KeyGen`, where it may fail); `sscanf` follows the C standard, out of range numbers are
    undefined.
* The overflow in `detect_lost_sei` (undefined in C) can be resolved in three ways in the model (`AuthEnv.ov`):
  as undefined, by wrapping, or as a compiler does that assumes that it does not happen.  Theorems say
  which of them they need.
* The unbounded loop of `maybe_validate_gop` has fuel (`AuthEnv.rounds`); running out of it is a separate
  outcome, and C46 says when it happens.
* Undefined behaviour (out-of-bounds read or write, NULL call, signed overflow, use after free, reading
  uninitialised memory) is a separate outcome `ub` of the model, never silently totalised.
* The session for the older format shares the types and decoders of the newer one where the C functions are the same;
  where they differ the definition in `Model/Legacy` says so.  A pointer that dangles after a call is a flag of the
  item (`dead`), and reading the item is then `ub`.
* Keys and digests of OpenSSL are parameters (`KeyEnv`, `MdEnv`); a finished digest context is assumed to refuse more
  data, as OpenSSL 3 does.  The blocks of memory that belong to keys are numbered and freed explicitly.
* Not represented: `decode_crypto_info` makes a printable name of the object identifier (`signed_video_tlv.c` 1003-1005)
  before it looks at the version of the record.  OpenSSL may there read as many bytes as the identifier claims to have (up
  to 255), also if the record ends earlier.  For a record of version 0 the model returns the error without that read, so
  theorems that exclude an over-read do not speak about this one read.  For other versions the model reads the same
  bytes itself.
* Threads: the threaded plugin is a transition system in which every step between lock and unlock is atomic.

## Layers

| layer | model module | C source |
|---|---|---|
| outcomes (`ok`, `err`, `ub`), with and without state | `Model/Out`, `Model/Res` | error handling macros |
| bytes, emulation prevention, big endian | `Model/Bytes`, `Model/Epb` | `signed_video_tlv.c` 1295-1403 |
| TLV encoders, decoders, framing, tag search | `Model/Tlv` | `signed_video_tlv.c` |
| version strings | `Model/Version` | `signed_video_h26x_common.c` |
| NAL unit parsing | `Model/Nalu` | `signed_video_h26x_common.c` 319-691 |
| SEI generation (bytes) | `Model/SeiBytes` | `signed_video_h26x_sign.c` 182-420 |
| NAL unit list, as pointers and as a sequence | `Model/NaluList` | `signed_video_h26x_nalu_list.c` |
| reports | `Model/Report` | `signed_video_authenticity.c` |
| signing plugins | `Model/Unthreaded`, `Model/Threaded` | `lib/plugins/*` |
| start and stop of the threaded plugin | `Model/Life` | `lib/plugins/threaded-signing/plugin.c` |
| memory of the threaded plugin | `Model/PlugMem` | `lib/plugins/threaded-signing/plugin.c`, `signed_video_openssl.c` 95-146 |
| buffer of SEIs | `Model/Slots` | `signed_video_h26x_sign.c`, `signed_video_h26x_common.c` |
| signing session | `Model/Sign` | `signed_video_h26x_sign.c`, `signed_video_h26x_common.c` |
| validation session | `Model/Auth` | `signed_video_h26x_auth.c` |
| private keys of a signing session | `Model/Keys` | `signed_video_openssl.c` 85-240 and 680-694, `signed_video_h26x_sign.c` 803-826, `plugin.c` of the unthreaded plugin |
| generation of private keys | `Model/KeyGen` | `signed_video_openssl.c` 574-766 |
| cryptographic handle | `Model/Digest` | `signed_video_openssl.c` 315-560 |
| session for the older format, inside a validation session | `Model/Legacy` | `lib/src/legacy`, `signed_video_h26x_auth.c` 1060-1216 |
| reports fetched by the user | `Model/Fetch` | `signed_video_authenticity.c` 304-342 |
| memory of reports | `Model/ReportMem` | `signed_video_authenticity.c`, `signed_video_h26x_sign.c` 775-802, `signed_video_tlv.c` 517-571 |
| is it a golden SEI | `Model/Golden` | `signed_video_h26x_common.c` 1294-1302 |
| Axis vendor record | `Model/Axis` | `lib/vendors/axis-communications` |

Property theorems live in `Verif/Props/*.lean`, one or more theorems per property, each followed by an
`example` that a concrete case meets its hypotheses.  What they say is written down in `Verif/Spec/*.lean`
without the helper functions of the model where this is possible.  Helper lemmas live in
`Verif/Proofs/*.lean`: `Sign*` about histories of the signing session, `Auth*` about states and histories of
the validation session, `Flow*` about the two composed, `Old*` about undisturbed streams of the older format.

## Plan per property

| id | modelled | proof |
|---|---|---|
| C01 | writer and reader as state machines over the two previous bytes | induction on the byte list, generalised over the state |
| C02 | whole SEI byte layout | invariant on three-byte windows; composition over separately written fields |
| C03 | buffer size arithmetic, bytes written | bound without emulation prevention; witness of overflow with it; exact condition (`_partial`) |
| C04 | big endian readers and writers | arithmetic |
| C05 | size and write paths of every encoder | per encoder equality, then lists |
| C06 | encode/decode of the general tag | symbolic evaluation for all field values |
| C07 | product info | induction on strings, truncation case |
| C08 | arbitrary data | direct; witness for 65536 bytes |
| C09 | key, list, signature, crypto info | direct, with state preconditions stated |
| C10 | framing | induction on the list of tags |
| C11 | decoders with `ub` outcome | witnesses of `ub`; safety for well framed input (`_partial`) |
| C12 | tag search on raw bytes | induction on TLVs; exact condition on the number of emulation prevention bytes; witness of failure |
| C13 | parse of generated bytes | computation with length lemmas |
| C14, C15 | parser | case analysis on prefix; induction on number of zeros |
| C16 | header parsers | exhaustive over header bytes with `decide`, lifted to all NAL units |
| C17 | parser with bounds-checked memory | witnesses and a sufficient length condition (`_partial`) |
| C18, C20, C21 | list as sequence | induction over operations |
| C19 | list as heap of nodes | invariant: heap represents a sequence; each operation preserves it (refinement) |
| C22-C24 | accumulation step | induction over report histories |
| C25 | comparison of triples | arithmetic; order laws |
| C26 | queue with capacity | simulation with an abstract FIFO |
| C27-C29 | small-step transition system, any schedule | inductive invariant |
| C30-C33 | SEI buffer with plugin queue | inductive invariant, simulation with FIFO |
| C34-C39 | signing session over parsed NAL units | invariant over histories |
| C40 | setters | case analysis |
| C41-C43 | one GOP validation and the session | characterisation of the verdict; induction for list matching |
| C44 | signer and validator composed | simulation over GOPs |
| C45-C51 | validation session | invariants, termination measure, non-interference by simulation |
| C52, C53, C55, C56 | attestation record, vendor handle over histories | invariants over histories of the handle, witnesses |
| C54 | comparison of counters | arithmetic on 64 bit integers |
| C57 | signer and validator composed | simulation over GOPs from the state of a new session |
| C58, C59 | session for the older format | invariant over rounds, calls and histories |
| C60-C63 | session for the older format | witnesses; for C63 an invariant that every continuation keeps |
| C64, C65, C68 | keys and the unthreaded plugin with blocks of memory | invariant over all calls: the live blocks are those referred to and those leaked; abstract run over a queue; simulation for C64 |
| C66 | handle with two contexts | invariant that relates the contexts to the bytes given |
| C67 | path of a key file | direct |
| C69 | session for the older format with a log of the NAL units passed to it | invariant: the items have hashes of what was received; joined with the marks of C58 |
| C70 | validating session with reports fetched at any time | total result as a function of the list of reports seen; invariant over all calls; witness for the latest validation after an error |
| C76 | `Spec/Old`: SEIs, GOPs, hashes and reports of the older format | `Proofs/Old*`: one round on a list whose items are those of one GOP; the state between two calls (`Ready`, `Due`); start of a session and replay; induction over GOPs |
| C77 | `Spec/Old`: streams as sent and as received, claims for each GOP | the proofs of C76 with a flag for each SEI (matches or not) and counts of wrong items; injectivity of the chained GOP hash on the inputs concerned |
| C78 | `Spec/Old`: the SEI whose NAL units were not received (`Apart`), the report without a verdict (`OldUndecided`) | `Proofs/OldJoin`: the first round fails, its effects on list and report are removed; then C77; witness for the failure with the very first SEI |
| C79 | `Model/KeyGen.lean`: generation of keys with files and blocks | case analysis over all failures (`Ends`); witnesses |
| C80 | `Spec/Gap`: streams with lost SEIs (`Gapped`), the reports (`Skipping`); the model of C44 | `Proofs/FlowGap`, `Proofs/FlowLost`: induction over the rounds of a call, one for each lost SEI, then over the stream, with an invariant about what comes before each pending intra picture (`Tied`); witnesses |
| C81 | `Model/Life.lean`: worker, callers of init and exit, sessions, with mutex and condition variable; `Spec/Life.lean`: `MayCall`, `NobodyOversleeps`, `NothingLeft`, `Scheduled` | `Proofs/Life` (invariant over all schedules), `Proofs/LifeStop` (exit returns), `Proofs/LifeHist` (where signatures come from); witnesses |
| C82 | `Model/PlugMem.lean`: blocks of memory of the threaded plugin; `Spec/PlugMem.lean`: what is referred to (`refs`), which set ups fail (`failures`) | `Proofs/PlugMem`, `Proofs/PlugMemRun`: invariant that live blocks are those referred to plus one for each failure, by counting; witness |
| C83 | `Model/Sign.lean`: `seiSize`, `intoRoom`, `getPrepend` | `Props/SignRoom`: the queue of C30 after the question, then its order over the rest of the history; witness for `signed_video_get_nalu_to_prepend` |
| C84 | `Model/Payload.lean`: `payload_offset`; `Spec/Payload.lean`: an encoder writing a SEI according to the standards | `Props/Payload`: both ways give the same parse (C13); witness for SEIs with emulation prevention |
| C85 | `Model/Create.lean`: making and freeing a session with every result of an allocation or OpenSSL call as a parameter, calls that set the hash algorithm; `Spec/Create.lean`: when a session can be made | `Props/Create`: ownership of blocks through each function; two witnesses for the parts that are false |
| C86 | the signing session joined with the plugins by equality of the sequences of hashes and signatures (`Props/Spoiled`) | pairing by number from the queue of C30, sublists from C27, order from C65; witness: joint run of both models |
| C87 | the validating session; sizes of signature records by a separate walk over TLV data (`Spec/SigSize`) | invariants over all calls (`Proofs/AuthSig`: the size is kept; `Proofs/AuthOther`: no SEI of another size is decoded, so no such stream is ever reported as OK), refutation of the full statement by a run of two signed streams |
| C88 | memory of key, signature and arbitrary data (`Model/Held`), each allocation and OpenSSL call with a result of its own | ownership of blocks (`Keys.Owns`) kept by each step; crash and leak for every history, witnesses |
| C89 | `signed_video_parse_sei` with its printouts (`Model/Show`) on top of the decoders of the validating session | loop of printing compared with the loop of decoding, round by round (`Proofs/Show`); witnesses for the conditions |
| C90 | the calls of the signing session (`Model/Sign`) | invariants of the flag of a golden SEI and of the authenticity level through every function (`Props/SignGolden`, `Props/SignLevel`); witness with a failed request |
| C91 | the calls of the signing session (`Model/Sign`), with `resetSigner` | the request for recurrent data followed from the frame counter to the generated SEI (`Props/SignAgain`); witness with a reset |
| C75 | as C74, at authenticity level frame | as C74; the list decoded is the list of hashes of the signed GOP, and what is received is a sublist of what was signed exactly if the hashes are |
| C74 | signer, altered stream and validator composed | simulation over GOPs as for C44, with an invariant that does not ask a GOP to be intact; a GOP that is not intact has another GOP hash or linked hash |
| C73 | product information in the model of the validating session, also what a failing decoder stores | invariant of all calls: each item of the list is a received NAL unit, and the product information is initial or found in one; determinism of the format for the camera; witness by evaluation |
| C72 | reports as blocks on a heap, with an outcome for every allocation | every block is owned by one pointer, stated by counting, kept by all operations; moves of blocks compose; simulation with a machine on texts |
| C71 | `signed_video_is_golden_sei` on the NAL unit parser | the generated bytes from C13 carried through the parser without removal of trailing zeros; inversion of the parser for the form of a golden SEI; witness for appended zero bytes |

The outcome per property (proved, partial, witness of failure) is in `MANIFEST.json` and in the section
"Results" below, which is kept up to date.

## Results

Status as in `MANIFEST.json` (theorem names there). "partial" means that the property as stated in `properties.jsonl` is
false of the code or only covered under the named conditions; theorems ending in `_false` are proofs of a concrete run of
the model that contradicts the statement, theorems ending in `_partial` are what does hold.

* **C01** (proved) Emulation prevention is reversible.
* **C02** (proved) A generated SEI never emulates a start code. Whole SEI: the patterns occur only inside the leading start code. Without emulation prevention the claim fails (C02_needs_epb).
* **C03** (partial) The SEI allocation covers what is written. False in general: C03_overflow/C03_statement_false give a session (2000 zero bytes of user data) whose SEI is written beyond its allocation. Proved for SEIs without emulation prevention and when at most 3/5 of the TLV bytes are zero.
* **C04** (proved) Integers survive serialisation.
* **C05** (proved) Size query equals what is written.
* **C06** (proved) General metadata round trip.
* **C07** (proved) Product info round trip and truncation.
* **C08** (partial) Arbitrary data round trip. Round trip for 1 to 65534 bytes; false for 65535 bytes (C08_too_long_fails).
* **C09** (proved) Public key, hash list, signature and crypto info round trips.
* **C10** (proved) A TLV sequence decodes to the same sequence.
* **C11** (partial) Decoding arbitrary bytes is memory safe. False in general (witnesses); holds for well framed and well sized data.
* **C12** (partial) Signer and validator hash the same SEI bytes. False in general: the search for the signature tag is bounded by the size without emulation prevention (C12_statement_false, 300 zeros of user data). C12_validator says exactly what is hashed; proved equal when fewer emulation prevention bytes than the signature TLV size precede the signature.
* **C13** (proved) A generated SEI is recognised and parsed back. C13_parsed for all options; C13_content connects it with TLV decoding for sessions without golden SEI and vendor data.
* **C14** (proved) Start code format does not matter. For bodies of at least four bytes (C14_short_body: shorter ones are over-read).
* **C15** (proved) Trailing zero bytes do not matter.
* **C16** (proved) Which NAL units are protected.
* **C17** (partial) Parsing a NAL unit is memory safe. False in general: C17_overreads. Proved for NAL units that are as long as they announce.
* **C18** (proved) Report strings are aligned with the NAL unit list. For every history of calls the two strings of a report are the letter and status rows of one list of columns. The columns with a NAL unit are exactly those that are still to be reported plus the one just added, in order; the columns of missing NAL units are blank. Hypothesis Sane excludes SEIs whose size field is smaller than the UUID, for which the size of the payload wraps around and the copy of the NAL unit fails.
* **C19** (proved) Linked list integrity.
* **C20** (partial) No NAL unit is lost or double counted. C20_counters says for every history what received, validated and pending count, in terms of what the user sees. C20_held is the conservation law for the list. received = validated + pending is false as stated (C20_unsigned_start_false: leading NAL units that are not pending are dropped by a NOT SIGNED report without being counted); C20_conserved_partial proves it under the conditions that no NOT SIGNED report drops NAL units and no missing ones are held.
* **C21** (proved) Clean up removes only settled NAL units from the front.
* **C22** (partial) Accumulated verdict reflects the worst verdict. False in general (C22_statement_false): SIGNATURE PRESENT followed by OK overwrites NOT OK. Holds while no later report is NOT SIGNED or SIGNATURE PRESENT.
* **C23** (proved) A changed public key sticks in the accumulated report.
* **C24** (proved) Accumulated timestamps span the reports.
* **C25** (partial) Version comparison is a lexicographic order. Order, antisymmetry, transitivity and errors proved. The last clause is false: the local report never holds the version of the library, so VERSION MISMATCH is never reported (C25_never_mismatch, C25_mismatch_statement_false). sscanf on numbers that do not fit an int is undefined (C25_overflow). C25_session_never: in no history of calls, in the newer or the older format, does a report that is handed out or fetched say 'version mismatch'; futureStream_ok: a stream signed with version 9.0.0 is reported as OK, with both versions in the report.
* **C26** (proved) Unthreaded plugin is a bounded FIFO.
* **C27** (partial) Threaded plugin never mixes sessions. False when the 32-bit session id wraps around while a hash is being signed (C27_statement_false: a schedule with 2^32 set ups). Proved for every schedule with fewer than 2^32 set ups.
* **C28** (partial) Threaded plugin buffers stay within bounds. Central thread: proved for every schedule (C28_central); with hashes of different sizes an assertion fails (C28_central_two_sizes). Thread per session: false (C28_local_statement_false: in[60] is read once all 60 elements have been used); proved when fewer than 59 hashes wait at each submission.
* **C29** (proved) Session ids are unique.
* **C30** (partial) At most 60 SEIs are buffered and indices stay in range. Proved for plugins that deliver no more signatures than they accepted hashes and no empty signature. Without this it is false (C30_statement_false): an empty signature leaves a pointer to freed memory in the buffer.
* **C31** (proved) SEIs are delivered in order and exactly once.
* **C32** (proved) Each SEI carries its own signature.
* **C33** (proved) A SEI is only released in front of a primary slice.
* **C34** (proved) The signed GOP hash commits to all NAL units of the GOP in order. For undisturbed sessions: all NAL units are accepted, the plugin accepts every hash, no golden SEI, no end of stream, no change of hash algorithm or key while running. Any number of GOPs of any length and any list size.
* **C35** (proved) GOPs are chained. For undisturbed sessions (see C34).
* **C36** (partial) The GOP counter increases by one per SEI. C36_counter: as read by a receiver, undisturbed sessions without golden SEIs. C36_any_history_partial covers every sequence of calls (end of stream, golden SEIs, refused calls included) in which no SEI generation is broken off half way; golden SEIs take no counter value. C36_statement_false shows the gap: a plugin that refuses to sign uses up a counter value without an SEI.
* **C37** (proved) Splitting a NAL unit into parts does not matter. All NAL units except SEIs. The first part has to contain start code, header and one byte of payload; the last part must not consist of zero bytes only (trailing zeros are stripped per part by the code). The state after the parts is the state after the whole NAL unit, apart from scratch data that every new NAL unit overwrites.
* **C38** (proved) Hash list never overflows and falls back to GOP level. For undisturbed sessions (see C34).
* **C39** (partial) Recurrent data appears at the configured interval. C39_recurrent_partial: exact, in terms of what the library counts as a frame, in undisturbed sessions (no golden SEI, no end of stream, every NAL unit accepted). C39_statement_false: the library also counts parameter sets and other NAL units with the first bit after the header set, so that with frames in the usual sense the statement fails.
* **C40** (proved) Settings that would break a running session are refused. Signing: C40_frozen, C40_range (over histories), C40_no_division. Validation: C40_public_key.
* **C41** (partial) OK means verified. False of the code, three witnesses: (1) a signature on which EVP_PKEY_verify fails with an error gives verdict OK (the GOP's NAL units are marked N, the SEI E, and neither is counted); (2) a SEI with a wrong signature before which no frame is pending gives verdict OK; (3) the list of hashes may come from a SEI that was never verified (C42_injected_list_false). What holds (C41_backed_partial): if EVP_PKEY_verify gives no error, then for every validation of a call reporting OK or OK WITH MISSING INFO (except a first one that is taken back) the signature holds with a public key if anything is compared with the SEI, and the hashes of all NAL units compared are those behind the decoded GOP hash or occur in order in the decoded list of hashes; all of them are marked valid. Missing: that the decoded list of hashes is from this SEI (false of the code).
* **C42** (partial) A modified, removed, added or reordered NAL unit is detected. False of the code as it stands, three witnesses: TLVs behind the signature are not signed but decoded; the list of hashes of an older SEI is kept, so that an old GOP can be replayed; a list of hashes injected with an unsigned SEI is used. Proved in part (C42_content_partial): if the decoded data is what the signer wrote for a GOP and no hash inputs collide, the compared NAL units are those of the GOP in order, and all of them if the report says OK. From end to end (C42_signed_partial): if the only SEIs received are those of an undisturbed signing session with any signature, or SEIs with a signed part that is not of the session and without list of hashes, if EVP_PKEY_verify accepts only what the session signed and hash inputs do not collide, then the NAL units compared in a call that reports OK or OK WITH MISSING INFO are NAL units of one signed GOP in order, all of them for OK; the GOP is that of the verified SEI, or that SEI has no list of hashes. Golden SEIs are left out.
* **C43** (proved) Hash list matching is order preserving. For every round in which the hash list is used, every list content: the outcomes are the greedy order preserving matching (specified in Spec/Match.lean independently of the model), unmatched items become N, the matched ones '.', gaps appear as inserted missing items in the order of the signed hashes, and the count returned is the number of missing ones. Hypotheses (SeiOk, Comparable) are met by an example.
* **C44** (partial) An untouched stream validates OK. For undisturbed sessions, when a beginning of the protected NAL units and of the SEIs reaches a new validator in order and each SEI comes after its GOP, with unprotected NAL units added or left out anywhere: with the public key in the SEIs (C44_confirmed_partial), or with a key set by the user and the hash algorithm that sessions start with (C44_preset_partial), and for the order in which the signer hands out its data (C44_in_order_partial). Missing: golden SEIs, streams that do not begin with an intra picture, protected NAL units with an illegal header, SEIs whose emulation prevention hides the signature (C12).
* **C45** (proved) A stream without Signed Video SEIs is reported as not signed. For whole sessions with resets and public keys in between: no call fails, a report appears exactly at the first NAL unit of every GOP but the first, and says NOT SIGNED with every protected NAL unit pending. NAL units are required to be non-empty and parseable, and not to contain the UUID anywhere (a slight over-approximation of 'no Signed Video SEI').
* **C46** (partial) Validation always terminates. Does not hold. C46_hang: after the loss of some GOPs of an honestly signed stream the call for the next I-frame does not end, whatever number of rounds is allowed. What holds, for every history and every input: C46_endless_partial (the loop goes on for ever exactly if a stuck state is reached, and never with a compiler that treats the overflow of the difference otherwise), C46_ends_partial (otherwise the outcome is independent of the number of rounds allowed), C46_rounds_partial (otherwise at most as many rounds as pending items).
* **C47** (proved) Several GOPs in one report give the worst verdict. C47_worst: for every history, a call that enters the validation loop and reports gives the minimum of the verdicts of its rounds (each round's own verdict is what the same round gives with a fresh report); SIGNATURE PRESENT only if nothing else is to report.
* **C48** (partial) A changed public key makes the report NOT OK. C48_report (all histories, any round of a call) and C48_round/C48_decoded (any state): a SEI validated in the loop that changes the verification key gives NOT OK and the flag. Not covered, shown false: a golden SEI that brings another key is reported SIGNATURE PRESENT (C48_golden_false); a failed golden SEI makes the session forget that a key was known, so the next change is not noticed (C48_forgotten_false).
* **C49** (partial) Lost SEIs are detected by the counter. C49_detect is exact for all counters if the compiler does not make use of the overflow (see C54), C49_expected in any case. At the wrap around of the 32 bit counter a lost SEI is not detected (C49_statement_false); C49_modular_partial covers everything else. With two's complement arithmetic a lost SEI would never be detected (C49_wrapping).
* **C50** (partial) Reset gives a fresh session. False of the code: the public key survives a reset (witness). After any history and a reset, an untouched stream is validated as by a new session if what is left over (key, algorithm, signature size, last counter) fits the stream (C50_after_partial); any number of streams with the same key and algorithm validate one after the other with a reset before each (C50_streams_partial).
* **C51** (partial) Non protected NAL units do not influence verdicts. For untouched streams, in which unprotected NAL units are added or left out anywhere: all reports say the same (C51_untouched_partial). False of the code in general: after a lost SEI an access unit delimiter before an I-frame changes the status of protected NAL units (witness).
* **C52** (partial) Axis attestation record is parsed exactly. C52_parsed_exactly: the report is accepted exactly if its first two sizes and the rest add up to the stored length, and the fields are the encoded ones. C52_no_overflow: no read outside of it. C52_never_replaced and C52_record over all histories. C52_roundtrip: what the encoder writes the decoder stores (only the untrusted certificates are sent). False for chains of fewer than three certificates (C52_short_chain_false): the record that is sent is refused by every receiver.
* **C53** (proved) Public key verdict of the vendor check. C53_ok: over all histories, the verdict OK after a check means that chain, attestation and signature over this key were accepted and the serial number is that of the certificate (KeyProven). C53_never_recovers and C53_changed_key: the verdict stays not OK. X.509 and PEM are parameters.
* **C54** (partial) Detection of lost SEIs has defined behaviour. Does not hold: the addition overflows whenever the counter is ahead (C54_overflow). C54_no_overflow_partial covers the other case.
* **C55** (partial) The vendor check reads only a live public key. False of the code: a key received while the last one is known to be invalid (C55_invalid_key_false) or under other product information (C55_other_manufacturer_false) is not given to the vendor, which then hashes the freed one. C55_live_partial: it holds for all histories in which the vendor is told of every key.
* **C56** (partial) A refused vendor record leaves no trace. False of the code: a refused record leaves its attestation behind, after which the true one is refused for ever (C56_stored_false); bytes after the record are stored (C56_beyond_false); memory outside is read (C56_overread_false). C56_refused_partial: nothing is changed if an attestation was already stored.
* **C57** (partial) A validator that joins a stream catches up. False of the code when the stream is joined within a GOP: every SEI is then compared with the GOP before the one that it signs, and all reports say NOT OK (witness). Proved for a stream joined at the start of any GOP when no SEI of an earlier GOP comes after it: every report says OK from the first SEI on.
* **C58** (partial) Older format: a NAL unit marked authentic was covered by a verified signature. Model/Legacy follows the session for the older format (lib/src/legacy) inside the newer one, with the switch to it and the replay of the NAL units so far. C58_covered_false: the flag used_in_gop_hash is not cleared when a validation fails after the GOP hash was computed (no public key yet) or when the verification returns neither 0 nor 1, and the next GOP hash that is verified marks what still has the flag: a SEI that nobody signed is shown with '.' in a report that says OK, and forged P-frames are shown with '.'. C58_marked_partial: for every history, each '.' in a report leads back to a round of a call since the session was created in which verify returned 1 for the key, signature and hash of that moment, and the item is in the hash list, or has the flag, or is the SEI. C58_no_signature: if verify never returns 1, no report ever shows '.'. C58_covered_partial: if hashes have 32 bytes, verify returns 0 or 1 and no call so far returned 'not supported' or 'invalid parameter' (the two ways in which flags are left behind), the hash that was verified is, for each '.', the hash of the SEI that was read, with the hash of the NAL unit in its list, or the GOP hash over hashes of NAL units of the list of which this is one, or the NAL unit is that SEI; signature, hash list and hash type are those decoded from that SEI. That the stored hashes are those of the bytes received is C69. Missing: nothing under these hypotheses; without them the statement is false.
* **C59** (partial) Older format: OK means verified. False of the code: a SEI with a GOP hash whose verification fails with an error, or a SEI whose signature is refused, before which no NAL unit of a GOP is pending, gives OK although nothing was ever verified (C59_ok_unverified_false). C59_ok_partial: for every history, OK means that verify returned 1 in the last round of the call, or that this round changed the status of no NAL unit.
* **C60** (partial) Older format: sessions are memory safe. False of the code: if missing NAL units are appended behind the NAL unit of the call, the copy is made of the wrong item, and the list keeps a pointer to a local variable of the returned call, which the next validation reads. The witness consists of untouched NAL units of which a SEI is late. C60_memory_partial: with streams as in C77 and C78, received from the start or from the middle on, the outcome is that of defined behaviour and no item of the list is dead.
* **C61** (partial) Older format: a validator that joins a stream catches up. False of the code: joined at an I-frame, with hash lists or with GOP hashes, every later report says NOT OK in the runs shown (four SEIs). C61_join_partial: joined at the SEI of a GOP instead, every report from the second SEI on is OK.
* **C62** (partial) Older format: reset gives a fresh session. False of the code: a reset resets the session for the older format but keeps it, so that all SEIs of the newer format are refused. What holds is C62_streams_partial: after a reset, any further stream of the older format with the same key gets exactly the reports a new session would give, for any number of streams with a reset before each. Missing from the partial: streams of the newer format, another key, and resets in the middle of a GOP.
* **C63** (partial) Older format: one bad SEI does not stop the validation. False of the code: the SEI that is refused stays pending and is decoded again, and refused again, in every later call that validates. The witness is a stream with one changed byte; the theorem says that after it no call without a reset in between, whatever it is given, hands out a report.
* **C64** (partial) A refused private key leaves signing as it was. Model/Keys: setting keys, signing and fetching, with the blocks of memory. C64_refused_partial: until the first key is accepted, nothing has an influence on what follows. False of the code afterwards: a key that cannot be read frees the memory for signatures, and no signature is handed out any more, whatever is called, until another key is read (C64_silent_false, for all histories before and after).
* **C65** (partial) Changing the private key keeps signatures and hashes in step. False of the code: a key set while hashes wait loses them, and the next signature is taken for the oldest waiting SEI (C65_order_false). C65_order_partial: for every history in which nothing waits when a key is accepted. C65_public: the public key always belongs to the private key accepted last.
* **C66** (partial) Hashes in one go and bit by bit agree. False of the code: an encoded OID, as received in a SEI, sets the algorithm for hashes in one go only; C66_stale_false: as long as only OIDs are set, the context for parts stays with the default algorithm, for all sequences of calls. C66_twice_false: an unknown OID is an error only the first time. C66_hash_partial: for all sequences of calls in which each OID belongs to the algorithm in force.
* **C67** (partial) The path of a generated key stays within its memory. False of the code for the empty directory, where the byte before the string is read. C67_path_partial: all other directories and file names.
* **C68** (partial) The memory of private keys is freed exactly once. C68_memory: no double free, no write out of bounds, for all histories. False of the code: the memory of the first key is leaked when a second one is read (C68_leak_false). C68_leak_partial: nothing is left for all histories in which at most one key can be read.
* **C69** (proved) Older format: the hashes behind a mark are those of what was received. C69_received: the items of the list carry hashes of the NAL units received (invariant Stored over all calls, with a log of the NAL units passed to the session, including those replayed when the format is recognised), pending items always have a hash, and what is decoded from a SEI is decoded from its bytes; together with the marks of C58 this gives, for every '.', a received SEI with an accepted signature and the received NAL units that went into what it signs. The reference hash that P-frames are hashed with is the hash of some NAL unit received earlier, or zeros.
* **C70** (partial) The total result of a report is that of the reports handed out. The total result is specified as a function of the list of reports the user has seen (Spec/Total), and C70_total shows that the incrementally updated accumulated validation agrees with it after every history of calls, errors included, in a session for the newer format; C70_older the same from any point on in a session for the older format; C70_again that a fetched report repeats the one just handed out, but for the flag of the time stamp. C70_latest_false: a call that fails while it validates leaves a fetched report with the verdict of the validation given up and the strings of the one before, and here NOT OK becomes 'signature present'. C70_latest_partial: a call that returns SV_OK without a report keeps the latest validation. Missing: calls that return an error, and the call in which the session switches to the older format, where the total result is started afresh and replayed NAL units may add to it without a report being handed out.
* **C71** (partial) Golden SEIs are told from others. C71_generated: a generated SEI gets the answer it was generated with, with and without emulation prevention; C71_escaped: the same for a SEI generated without emulation prevention that got it on the way, with any number of zero bytes after it; C71_only: any byte string with the answer yes has the form of a golden SEI as written in Spec/Golden. C71_zeros_statement_false: trailing zero bytes are not removed by this function, and with one zero byte after a SEI without emulation prevention the payload is taken for one with emulation prevention; contents with 00 00 03 then make it read behind the NAL unit. C71_zeros_partial: appended zero bytes do not matter for SEIs with emulation prevention.
* **C72** (partial) Memory of authenticity reports. C72_safe_partial: no undefined behaviour in any sequence of operations if the version strings get their memory, whatever other allocations fail; C72_safe_statement_false (and _false_local): authenticity_report_init does not check its two allocations, and transfer_authenticity then writes or reads through NULL. C72_copy: what is handed out reads as the local report, or nothing is handed out and all texts stay; C72_kept: a report handed out reads the same until it is freed; C72_values: with memory enough all texts are those of a machine without memory (Vals.apply); C72_no_leak: the blocks left after closing are those of the reports not freed; C72_set: product information set is all new or, when memory is short, all gone.
* **C73** (partial) Product information comes from signed SEIs. C73_from_sei_partial: after any calls the product information is that of a new session, or all five texts are those of one record of a received SEI (Spec/Product: walk over the records, texts that end with NUL). C73_camera_partial: if the SEIs received are those of an undisturbed signing session, with any signatures, it is what was set there, of each text at most 254 characters. C73_statement_false: a recording that starts within a stream, with a changed serial number in the SEI of the GOP before it, is found authentic in all reports and shows the changed serial number, because a first validation that is not OK is taken back but not what was decoded for it.
* **C74** (partial) Damage to a stream is contained. C74_contained_partial: the GOPs that came as signed, with the intra picture before, are OK whatever happened to the others, for any changes between intra pictures from the second GOP on (Spec/Damage); C74_exact_partial: at authenticity level GOP, if the hashed inputs do not collide, exactly the others are NOT OK. Missing: lost or additional intra pictures and lost SEIs, damage to the first GOP, golden SEIs; detection with lists of hashes is C42.
* **C75** (partial) With lists of hashes, reports say what happened to each GOP. C75_diagnosed_partial: exact verdict for each GOP with a complete list of hashes, including the numbers sent, received and marked as missing, for any changes between intra pictures from the second GOP on, if the hashed inputs do not collide and no intra picture consists of two hashes; C75_mask_false: the last assumption is needed, since the hash of an intra picture and that of other NAL units are not kept apart. Missing: lost or additional intra pictures and lost SEIs, damage to the first GOP, golden SEIs, the position of the items marked as missing.
* **C76** (proved) Older format: an untouched stream validates OK. C76_old_ok: by induction over GOPs, with the state between two calls described by the hashes of the NAL units since the start of the GOP; Spec/Old describes the stream, the bytes of the SEIs and the reports independently of the model. Two variants of the SEI and of the general tag are in the example. The parts of a stream before the first SEI must not contain pictures (a session that joins in the middle of a GOP is not covered).
* **C77** (proved) Older format: alterations are reported where they are. C77_old_damage gives the exact reports in terms of which SEIs match what was received (also for altered SEIs); C77_old_gop_hash shows that other NAL units give another GOP hash unless two of the inputs named there collide; C77_old_altered combines the two for a stream as sent and as received. Not covered: alterations in GOPs signed by lists of hashes, a first SEI that does not match, lost or added SEIs, GOPs that lose their intra picture.
* **C78** (partial) Older format: a session can start in the middle of a stream. C78_old_join_partial: the round in which the first SEI finds only the first NAL unit of its own GOP, for lists of hashes (nothing is found, missing items are inserted) and for GOP hashes (the hash does not match); all of it is taken back, and the state is the one of C77. C78_old_join_ok_partial is the case without later damage. C78_first_false: the last sentence of the property is false. With the first SEI, which signs one NAL unit, legacy_maybe_validate_gop (legacy_h26x_auth.c 937-949) sets the I-frame back to its state before the round, so that the next SEI is tried with this I-frame alone; it fails, and from then on each SEI is used for the wrong GOP. A single change of the first I-frame makes all GOPs NOT OK.
* **C79** (partial) A generated private key is where it was asked for, or nowhere. The functions that generate keys with a file system and blocks of memory; every step that can fail does or does not according to a parameter. C79_memory: nothing leaks and nothing is freed twice, whatever fails. C79_ok_partial and C79_fail_partial: what holds after SV_OK and after an error. C79_path_false: if there is no memory for the path, the path is NULL and the file is silently not written; SV_OK is returned. C79_close_false: the result of fclose is not looked at, so a full disk goes unnoticed, contrary to signed_video_openssl.h 155 ("successfully written PEM-file"). C79_left_false: if the copy in memory fails, which is made even when not asked for, an error is returned but the key file stays. An empty directory is C67.
* **C80** (partial) A lost SEI is blamed on the NAL units it signs, and on no others. C80_lost_seis_partial: several rounds in one call, each of which marks the NAL units of one GOP as invalid (verify_hashes_without_sei) until the counter of the SEI is reached; then its own GOP is validated with the linked hash carried along. Proved for every number of lost SEIs, if the first SEI is received and each intra picture comes directly after another protected NAL unit. C80_delimiter_false: with access unit delimiters before the intra pictures and one SEI lost, verify_hashes_without_sei (signed_video_h26x_auth.c 549-590), which looks at the item directly before an intra picture, does not see the end of the GOP and also marks the NAL units of the GOP whose SEI was received; the validation stays out of step. C80_nothing_ok_false: one of these reports is even OK with none of three NAL units received. C80_first_false: if the first SEI is lost no GOP is ever OK. The numbers in the report (expected -1, received less one for each lost SEI) are those of the code.
* **C81** (partial) The threaded signing plugin can be started, used and stopped in any interleaving. Model/Life: the central thread, the sessions and the callers of init and exit as steps between which the mutex is released; a signal wakes one sleeper, chosen by the schedule. C81_defined, C81_awake, C81_exit_returns and C81_nothing_left: for all schedules that keep to the order of calls (MayCall). C81_own_partial: for fewer than 2^32 set ups, since ids are reused when the counter wraps. C81_overlap_false: two overlapping calls of exit (both pass the test of central.thread, plugin.c 716-744) free sign_data while the worker signs with it. C81_early_false: if exit is called while init waits, the worker sets is_running again when it starts and exit waits for ever; C81_early_forever: no schedule whatever makes it return. Setting central.thread is part of the step in which the thread is created; unlocked reads of it are steps.
* **C82** (partial) The threaded signing plugin returns all its memory. Model/PlugMem: the blocks of memory of the plugin, every call and every step of a worker as one step. C82_memory: for all histories in which only sessions that are set up are torn down, nothing is undefined, and the live blocks are those referred to, each once, and one for each session with its own thread that could not be set up. C82_left: exactly these are left at the end. C82_returned_false, C82_leak_grows: local_setup (plugin.c 677-714) frees what its threaded_data_t refers to but not the threaded_data_t, so each attempt with a key that cannot be read leaks one. C82_returned_partial: nothing is left if no such set up fails. Allocations inside openssl_private_key_malloc are assumed to succeed.
* **C83** (partial) The memory given for a SEI is large enough. Model/Sign: seiSize (the size reported), intoRoom (copying to memory of that size, an overflow if it is too small). C83_query_exact: the next SEI handed out has the size reported, over all later histories without signed_video_get_nalu_to_prepend. C83_prepend_false: get_nalu_to_prepend (signed_video_h26x_sign.c 693-713) asks the plugin for signatures before it allocates and again before it copies; if the signature of a larger SEI arrives in between, that SEI is copied to the memory of the smaller one. C83_prepend_partial: no overflow if no signature arrives in between. malloc is assumed to succeed.
* **C84** (partial) An encoder can write the SEI itself, from its payload. Model/Payload: the offset. Spec/Payload: an encoder that writes a SEI with user data according to the standards (size coding, emulation prevention), independent of the library. C84_offset for every SEI; C84_encoder: for SEIs without emulation prevention, what the encoder writes is parsed as the SEI handed out, in all members the validator uses. C84_any_false: with emulation prevention by the library the encoder applies it twice, and the TLVs are not found; the description of signed_video_get_sei does not say that signed_video_set_sei_epb(self, false) is needed.
* **C85** (partial) A session that cannot be made, and one that is freed, leave no memory behind. Model/Create: signed_video_create and signed_video_free with every result of a call that can fail as a parameter, and the calls that change the crypto handle in between; pointers are blocks of memory. C85_when: exactly when there is a session, NULL, or a dereference of NULL. C85_partial: without that dereference memory is given back, except for one ASN1_OBJECT for each algorithm given as text of an OID. C85_false_null, C85_false_leak: witnesses. Members that other properties deal with (keys C68, reports C72, the older format C60, plugins C68 and C82) are NULL here.
* **C86** (partial) A signature that cannot be made spoils only its own SEI. Joins the models of the signing session (C30-C32) with those of the threaded (C27) and the unthreaded plugin (C65): hashes given away are the hashes accepted, signatures taken are those handed out. C86_paired: SEIs and signatures are paired by number. C86_unthreaded: the claim. C86_partial: with the threaded plugin up to the first gap. C86_spoiled, C86_unverifiable: after one hash that cannot be signed, every later SEI carries the signature of a later one, for histories of any length. C86_false: witness without any error returned to the user. The interleaving of the two models is not fixed beyond the equality of the sequences, which makes the theorems cover more than the real interleavings; central thread only (get_signature is the same code for local threads).
* **C87** (partial) A session can go on with a stream signed by another kind of key. C87_taken: a SEI that is decoded fixes the room for the signature. C87_kept: it stays for every history of calls, resets and keys. C87_refused_partial: a round due to a SEI with another room fails, in any later call; the sizes are read from the TLV data by a walk of its own (Spec/SigSize). C87_false, C87_seen: a stream that a new session reports OK is refused SEI by SEI with SV_MEMORY after a stream with smaller signatures, with and without a reset. C87_never: after a reset no stream whose SEIs all have another room is ever reported as OK or OK with missing info, for all calls.
* **C88** (partial) What a session copies from SEIs is kept in its memory and freed with it. C88_only: in any history the only undefined behaviour is a NULL key. C88_partial: without a failing allocation for a key in a SEI, memory is as before but for at most one block, exactly if the last record of arbitrary data was accepted. C88_null: key, failed allocation for a key of another length, key of the first length: NULL is dereferenced after any history. C88_leak, C88_false_null, C88_false_leak: the claim is false. Records are given by their sizes and the results of the calls, not by bytes (those are the subject of C11); vendors are left out.
* **C89** (partial) Whatever can be decoded can be printed. C89_partial: if all hash sizes are between 1 and 64 and divide the 19200 bytes of the array, and (with the vendor code) no key follows product information of Axis and there is no vendor record, printing has exactly the undefined behaviour of decoding; the rows are all records, or those before the first that cannot be decoded, and each hash list is shown with the size in force. C89_axis, C89_noDigest, C89_notFilled, C89_false, C89_false': the conditions are needed. The texts printed for other records are not modelled, their values stand for them. C89_own_partial: every SEI made by the library, golden or not, without vendor record, is printed completely, also if it names Axis. C89_session_partial: so is every SEI handed out in any history of an undisturbed signing session. C89_wholeHashes: the lines of a list of whole hashes are the list.
* **C90** (partial) A golden SEI is generated on request only, and leaves the settings alone. C90_golden: every history of a new session; C90_thawed: a reset at any place; C90_level_partial: the level GOP holds through failures and resets if no golden SEI is requested. C90_level_false: a request for a golden SEI, even one that fails, changes the level to frame for all later SEIs.
* **C91** (partial) The first SEI after a reset can be validated on its own. C91_partial: with the interval 1 every SEI generated for a NAL unit given as a whole has the recurrent data, in any state. C91_false: with the interval 25, a GOP, a reset and another GOP, the SEI after the reset has none. Other intervals without a reset are C39.
