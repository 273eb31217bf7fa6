{
 "claims": [
  {
   "property": "C01",
   "status": "proved",
   "theorems": [
    "Verif.Props.C01_oprf_correct",
    "Verif.Props.C01_oprf_identity_refused",
    "Verif.Props.C01_oprf_mlock_fails"
   ],
   "note": "The RFC 9497 output for every input of up to 255 bytes, key and blind; refusal of the identity and of failing mlock."
  },
  {
   "property": "C02",
   "status": "proved",
   "theorems": [
    "Verif.Props.C02_blind_uniform",
    "Verif.Props.C02_blind_hides"
   ],
   "note": "Bijection between the scalars libsodium draws and the non-identity elements, for every input."
  },
  {
   "property": "C03",
   "status": "proved",
   "theorems": [
    "Verif.Props.C03_expand_message_xmd",
    "Verif.Props.C03_expand_message_xmd_length",
    "Verif.Props.C03_hash_to_group"
   ],
   "note": "Equal to an independent transcription of RFC 9380 for all admissible lengths; 255-byte tags refused."
  },
  {
   "property": "C04",
   "status": "proved",
   "theorems": [
    "Verif.Props.C04_finalize_rfc",
    "Verif.Props.C04_finalize_injective"
   ],
   "note": "Hash input equals RFC 9497's and is injective in input and element."
  },
  {
   "property": "C05",
   "status": "proved",
   "theorems": [
    "Verif.Props.C05_evaluate_iff",
    "Verif.Props.C05_evaluate_output"
   ],
   "note": "Exact success condition and output."
  },
  {
   "property": "C06",
   "status": "proved",
   "theorems": [
    "Verif.Props.C06_unblind_iff",
    "Verif.Props.C06_unblind_inverts"
   ],
   "note": "Exact success condition and output."
  },
  {
   "property": "C07",
   "status": "partial",
   "theorems": [
    "Verif.Props.C07_blind_whole_input_partial",
    "Verif.Props.C07_blind_truncates",
    "Verif.Props.C07_blind_256_collide"
   ],
   "note": "Holds up to 255 bytes; violated for longer inputs (truncation proved)."
  },
  {
   "property": "C08",
   "status": "proved",
   "theorems": [
    "Verif.Props.C08_evaluate_compose",
    "Verif.Props.C08_evaluate_comm"
   ],
   "note": "Composition and commutation of evaluations."
  },
  {
   "property": "C09",
   "status": "proved",
   "theorems": [
    "Verif.Props.C09_create_shares"
   ],
   "note": "For n <= 254 and threshold >= 2; the other sizes are undefined behaviour, see C21."
  },
  {
   "property": "C10",
   "status": "proved",
   "theorems": [
    "Verif.Props.C10_reconstruct"
   ],
   "note": "For every at least threshold-sized subset of dealt shares, in any order (n <= 254, threshold >= 2)."
  },
  {
   "property": "C11",
   "status": "partial",
   "theorems": [
    "Verif.Props.C11_secrecy_statistical",
    "Verif.Props.C11_secrecy_partial",
    "Verif.Props.C11_share_excludes_secret"
   ],
   "note": "Unique coefficient vector over all canonical vectors. libsodium never draws 0, so exact uniformity fails (C11_share_excludes_secret); C11_secrecy_statistical bounds the loss: the pairing leaves at most (t-1)*L^(t-2) of the (L-1)^(t-1) vectors unpaired."
  },
  {
   "property": "C12",
   "status": "proved",
   "theorems": [
    "Verif.Props.C12_coeff",
    "Verif.Props.C12_coeff_interpolates"
   ],
   "note": "For all index lists; interpolation for distinct indexes."
  },
  {
   "property": "C13",
   "status": "proved",
   "theorems": [
    "Verif.Props.C13_thresholdmult"
   ],
   "note": "For every subset of successful evaluations that is large enough."
  },
  {
   "property": "C14",
   "status": "proved",
   "theorems": [
    "Verif.Props.C14_thresholdmult_order"
   ],
   "note": "For arbitrary responses."
  },
  {
   "property": "C15",
   "status": "proved",
   "theorems": [
    "Verif.Props.C15_thresholdmult_rejects",
    "Verif.Props.C15_thresholdmult_too_many",
    "Verif.Props.C15_thresholdmult_iff"
   ],
   "note": "Rejection, and exact success condition for distinct non-zero indexes."
  },
  {
   "property": "C16",
   "status": "proved",
   "theorems": [
    "Verif.Props.C16_evaluate_combine",
    "Verif.Props.C16_evaluate_output",
    "Verif.Props.C16_evaluate_succeeds"
   ],
   "note": "For every announced list of indexes and all tags."
  },
  {
   "property": "C17",
   "status": "proved",
   "theorems": [
    "Verif.Props.C17_combine_order",
    "Verif.Props.C17_combine_sum"
   ],
   "note": "Outcome depends only on the multiset of elements."
  },
  {
   "property": "C18",
   "status": "partial",
   "theorems": [
    "Verif.Props.C18_combine_rejects_partial",
    "Verif.Props.C18_combine_ignores_malformed"
   ],
   "note": "Violated: malformed responses are skipped with return value 0 (proved for every group)."
  },
  {
   "property": "C19",
   "status": "proved",
   "theorems": [
    "Verif.Props.C19_3hashtdh",
    "Verif.Props.C19_3hashtdh_iff"
   ],
   "note": "For all session ids; exact success condition of each answer."
  },
  {
   "property": "C20",
   "status": "proved",
   "theorems": [
    "Verif.Props.C20_threshold_oprf",
    "Verif.Props.C20_threshold_oprf_combine"
   ],
   "note": "Both combination modes."
  },
  {
   "property": "C21",
   "status": "partial",
   "theorems": [
    "Verif.Props.C21_create_shares_safe_partial",
    "Verif.Props.C21_create_shares_255",
    "Verif.Props.C21_create_shares_threshold",
    "Verif.Props.C21_combine_safe_iff"
   ],
   "note": "Safe for n <= 254, threshold >= 2 and at least one response; violated otherwise (proved)."
  },
  {
   "property": "C22",
   "status": "proved",
   "theorems": [
    "Verif.Props.C22_honest_shares_verify",
    "Verif.Props.C22_start_mlock_fails"
   ],
   "note": "For n <= 254, threshold >= 1 and every draw of the random scalars."
  },
  {
   "property": "C23",
   "status": "proved",
   "theorems": [
    "Verif.Props.C23_verify_iff",
    "Verif.Props.C23_verify_malformed_iff",
    "Verif.Props.C23_accepted_on_polynomial"
   ],
   "note": "Exact acceptance condition; accepted shares lie on one polynomial of degree below the threshold."
  },
  {
   "property": "C24",
   "status": "partial",
   "theorems": [
    "Verif.Props.C24_verify_commitments_partial",
    "Verif.Props.C24_malformed_hides"
   ],
   "note": "Exact list unless a commitment after the first is malformed or the identity; then the property is violated (proved)."
  },
  {
   "property": "C25",
   "status": "proved",
   "theorems": [
    "Verif.Props.C25_dkg_sum",
    "Verif.Props.C25_dkg_reconstruct"
   ],
   "note": "For all honest dealings; reconstruction from any threshold-sized subset."
  },
  {
   "property": "C26",
   "status": "proved",
   "theorems": [
    "Verif.Props.C26_dkg_public_key"
   ],
   "note": "For arbitrary dealers, from the receivers' checks alone; shares canonical (others: C27)."
  },
  {
   "property": "C27",
   "status": "partial",
   "theorems": [
    "Verif.Props.C27_share_contributes_partial",
    "Verif.Props.C27_top_bit_malleable"
   ],
   "note": "Holds for shares with bit 255 clear; violated otherwise (proved)."
  },
  {
   "property": "C28",
   "status": "partial",
   "theorems": [
    "Verif.Props.C28_dkg_safe_partial",
    "Verif.Props.C28_reconstruct_safe_iff",
    "Verif.Props.C28_dkg_255",
    "Verif.Props.C28_dkg_threshold0"
   ],
   "note": "Safe for n <= 254 and threshold >= 1; violated for n = 255, threshold 0 and no responses (proved)."
  },
  {
   "property": "C29",
   "status": "proved",
   "theorems": [
    "Verif.Props.C29_inverted_vandermonde",
    "Verif.Props.C29_first_row",
    "Verif.Props.C29_finish_safe_iff"
   ],
   "note": "For every size and all distinct indexes: two-sided inverse, first row = Lagrange coefficients."
  },
  {
   "property": "C30",
   "status": "proved",
   "theorems": [
    "Verif.Props.C30_mpc_mul"
   ],
   "note": "Threshold >= 2, up to 254 peers, any dealer set of at least 2t-1 in any order."
  },
  {
   "property": "C31",
   "status": "partial",
   "theorems": [
    "Verif.Props.C31_mul_start_partial",
    "Verif.Props.C31_mul_start_ub"
   ],
   "note": "Exact for thresholds other than 1 and up to 254 peers; violated otherwise (proved)."
  },
  {
   "property": "C32",
   "status": "proved",
   "theorems": [
    "Verif.Props.C32_tp_to_peer",
    "Verif.Props.C32_peer_to_tp"
   ],
   "note": "After every successful call of the trusted party the message announced for each peer has the size that the consuming peer step expects; every peer output has the size that the trusted party expects per peer."
  },
  {
   "property": "C33",
   "status": "partial",
   "theorems": [
    "Verif.Props.C33_total_is_sum",
    "Verif.Props.C33_equal_partial",
    "Verif.Props.C33_sizes_of_answers",
    "Verif.Props.C33_equal_violated"
   ],
   "note": "The total is the sum in every state; the steps with equal sizes report them so. Violated in the key reveal step: it reports unequal sizes even if they are all equal (proved)."
  },
  {
   "property": "C34",
   "status": "partial",
   "theorems": [
    "Verif.Props.C34_peer_wrong_length_partial",
    "Verif.Props.C34_peer_ended",
    "Verif.Props.C34_peer_step10_violated",
    "Verif.Props.C34_wrong_length_partial",
    "Verif.Props.C34_ended",
    "Verif.Props.C34_wrong_length_step6_violated"
   ],
   "note": "Both sides: every step with a length check refuses wrong lengths and changes nothing, and a run that is over fails. Violated (proved) in the complaint step of the trusted party, where the run goes on, and in step 10 of the peer, which checks nothing."
  },
  {
   "property": "C35",
   "status": "proved",
   "theorems": [
    "Verif.Props.C35_accepted_iff",
    "Verif.Props.C35_accepted_only_if"
   ],
   "note": "recv_msg accepts exactly the serialised messages that match the expectation. The window of the timestamp is compared without wrap-around (hypothesis NoWrap); a second theorem needs no such hypothesis for the other conditions."
  },
  {
   "property": "C36",
   "status": "partial",
   "theorems": [
    "Verif.Props.C36_body_ignored",
    "Verif.Props.C36_not_authenticated",
    "Verif.Props.C36_header_partial"
   ],
   "note": "The code violates the property: only the 47 header bytes are signed. C36_body_ignored and C36_not_authenticated prove the violation; C36_header_partial shows that the header is authenticated."
  },
  {
   "property": "C37",
   "status": "partial",
   "theorems": [
    "Verif.Props.C37_monotone_partial",
    "Verif.Props.C37_replay_rejected",
    "Verif.Props.C37_window_partial",
    "Verif.Props.C37_ahead_of_clock"
   ],
   "note": "Accepted timestamps never decrease, replays with an older timestamp are rejected and the window is respected. The comparison with the clock happens only for the first message: C37_ahead_of_clock proves that accepted timestamps may run ahead of the clock."
  },
  {
   "property": "C38",
   "status": "proved",
   "theorems": [
    "Verif.Props.C38_peer_ends",
    "Verif.Props.C38_tp_ends"
   ],
   "note": "Trusted party: done after at most 10 calls and failing from then on. Peer: done after at most 11 calls and failing from then on."
  },
  {
   "property": "C39",
   "status": "partial",
   "theorems": [
    "Verif.Props.C39_peer_error_ends",
    "Verif.Props.C39_tp_error_ends_partial",
    "Verif.Props.C39_tp_step6_violated"
   ],
   "note": "Every error of a peer ends its run. Trusted party: every error outside the complaint step ends the run. Violated in the complaint step (proved)."
  },
  {
   "property": "C40",
   "status": "proved",
   "theorems": [
    "Verif.Props.C40_routing"
   ],
   "note": "Handshake steps 2 and 3 and share step 5, for all n, i, j and contents."
  },
  {
   "property": "C41",
   "status": "proved",
   "theorems": [
    "Verif.Props.C41_broadcast"
   ],
   "note": "Steps 1, 4 and 6, for all n and contents."
  },
  {
   "property": "C42",
   "status": "partial",
   "theorems": [
    "Verif.Props.C42_log_bounded_and_kept",
    "Verif.Props.C42_rejected_reported_partial",
    "Verif.Props.C42_long_term_signature_violated"
   ],
   "note": "Bound and stability of the log in every call, and a report for every rejected message, except for an invalid long-term signature in step 1, which is not reported (proved)."
  },
  {
   "property": "C43",
   "status": "partial",
   "theorems": [
    "Verif.Props.C43_peer_complaints_partial",
    "Verif.Props.C43_peer_lists",
    "Verif.Props.C43_peer_range_violated",
    "Verif.Props.C43_tp_complaints"
   ],
   "note": "Trusted party: for arbitrary messages and every result. Peers: at every time no duplicates and within capacity; after a successful step exactly the announced pairs; in range if the announced ones are. The code does not check the range of the accused: C43_peer_range_violated."
  },
  {
   "property": "C44",
   "status": "proved",
   "theorems": [
    "Verif.Props.C44_verdict",
    "Verif.Props.C44_dealt_share_right",
    "Verif.Props.C44_honest_dealer_acquitted",
    "Verif.Props.C44_stored_authentic"
   ],
   "note": "Verdict of the trusted party against ShareRight (key commitment, decryption, Feldman equation) for every answered complaint of another peer whose stored message is authentic; shares dealt by the modelled dkg_start are right."
  },
  {
   "property": "C45",
   "status": "partial",
   "theorems": [
    "Verif.Props.C45_unanswered_violated",
    "Verif.Props.C45_accused_reported_partial"
   ],
   "note": "Violated: the report with code 7 has the complainer as peer, and the message function names the complainer (proved). There is always a second report that names the accused (proved)."
  },
  {
   "property": "C46",
   "status": "proved",
   "theorems": [
    "Verif.Props.C46_share_confirmed"
   ],
   "note": "For all histories of calls with arbitrary inputs: if the share changes, the history contains the transcript hash sent by the peer and an accepted, authentic OK for the same transcript."
  },
  {
   "property": "C47",
   "status": "proved",
   "theorems": [
    "Verif.Props.C47_start",
    "Verif.Props.C47_same_broadcasts",
    "Verif.Props.C47_peers_agree",
    "Verif.Props.C47_confirms_iff"
   ],
   "note": "OK iff all hashes agree (C47_confirms_iff); trusted party and peers that saw the same broadcasts have the same hash (C47_same_broadcasts, C47_peers_agree)."
  },
  {
   "property": "C48",
   "status": "partial",
   "theorems": [
    "Verif.Props.C48_honest_run_partial",
    "Verif.Props.C48_shares_reconstruct_partial",
    "Verif.Props.C48_late_clock_refused"
   ],
   "note": "All calls of all parties along the schedule of the test driver return 0, all parties finish, no cheater, no complaint, and the final shares lie on one polynomial of degree < t whose value at 0 is the sum of the secrets drawn (C48_honest_run_partial); t of them reconstruct it (C48_shares_reconstruct_partial). Missing: clocks of peers that are behind the clock of the trusted party at its start; for them the property is violated (C48_late_clock_refused)."
  },
  {
   "property": "C49",
   "status": "partial",
   "theorems": [
    "Verif.Props.C49_defined_partial",
    "Verif.Props.C49_null_log_violated",
    "Verif.Props.C49_overread_violated",
    "Verif.Props.C49_no_commitments_violated"
   ],
   "note": "Defined behaviour for all inputs and buffer lengths outside three cases; in each of these (no log file in steps 2 and 3, complaint counts beyond the input, t=0 in step 7) undefined behaviour is proved."
  },
  {
   "property": "C50",
   "status": "partial",
   "theorems": [
    "Verif.Props.C50_history_safe_partial",
    "Verif.Props.C50_freed_early",
    "Verif.Props.C50_double_free_violated",
    "Verif.Props.C50_use_after_free_violated",
    "Verif.Props.C50_count_read_violated",
    "Verif.Props.C50_count_write_violated"
   ],
   "note": "Defined behaviour for all histories from the start on as long as no session used in steps 3 to 5 was freed after a failed handshake and the announced numbers of complaints are at most n; the cleanup is defined iff no session was freed. Violations proved from reachable histories: double free in the cleanup, use after free in step 4; over-read and overflow by the number of complaints. Assumes the session slots are NULL at first, as in the driver of the tests."
  },
  {
   "property": "C51",
   "status": "partial",
   "theorems": [
    "Verif.Props.C51_tp_accepts_partial",
    "Verif.Props.C51_peer_accepts",
    "Verif.Props.C51_same_parameters_partial",
    "Verif.Props.C51_index_partial",
    "Verif.Props.C51_threshold_violated",
    "Verif.Props.C51_index_violated"
   ],
   "note": "Exact acceptance conditions of both sides, and agreement of all parameters for t>=2. Violated (proved): the trusted party accepts t=1, which no peer accepts; a peer accepts an index above n."
  },
  {
   "property": "C52",
   "status": "partial",
   "theorems": [
    "Verif.Props.C52_explained_partial",
    "Verif.Props.C52_unhandled_not_explained",
    "Verif.Props.C52_wrong_length_violated"
   ],
   "note": "All reports outside a list of codes are explained; those on the list are proved not to be, and one of them is produced for every message with a wrong length field."
  },
  {
   "property": "C53",
   "status": "partial",
   "theorems": [
    "Verif.Props.C53_ok_delivered_partial",
    "Verif.Props.C53_no_not_delivered_violated"
   ],
   "note": "A confirmation returned with success is handed out to all peers. If the step returns 3 (in particular with NO) nothing is handed out (proved)."
  },
  {
   "property": "C54",
   "status": "proved",
   "theorems": [
    "Verif.Props.C54_handshake",
    "Verif.Props.C54_transport",
    "Verif.Props.C54_send_succeeds"
   ],
   "note": "Handshake for all keys, prologues and payloads up to the size limit; transport for all interleavings of sending and delivery in both directions."
  },
  {
   "property": "C55",
   "status": "partial",
   "theorems": [
    "Verif.Props.C55_nonces",
    "Verif.Props.C55_nonces_transport",
    "Verif.Props.C55_failure_keeps_transport",
    "Verif.Props.C55_read_out_of_turn",
    "Verif.Props.C55_write_out_of_turn_partial",
    "Verif.Props.C55_write_out_of_turn_stuck"
   ],
   "note": "Nonces and out-of-turn reads proved. An out-of-turn write is refused but sets the step to 4 and makes the session unusable (proved); the claim does not hold there."
  },
  {
   "property": "C56",
   "status": "proved",
   "theorems": [
    "Verif.Props.C56_send",
    "Verif.Props.C56_send_receive",
    "Verif.Props.C56_byte_order"
   ],
   "note": "send_msg and recv_msg against a separate serialisation; little-endian host."
  },
  {
   "property": "C57",
   "status": "partial",
   "theorems": [
    "Verif.Props.C57_one_slot_per_peer",
    "Verif.Props.C57_own_answer",
    "Verif.Props.C57_processed_once",
    "Verif.Props.C57_enough_partial",
    "Verif.Props.C57_failure_counts_violated",
    "Verif.Props.C57_closed_counts_violated",
    "Verif.Props.C57_refused_counts_violated"
   ],
   "note": "For all arrival schedules: one slot per peer, a slot holds only what was read from its peer (and processed), every answer is processed once, and at least the requested number of slots is filled when gather returns. Violated (proved): failed reads, closed connections and refused pending packets count as answers, so fewer peers than requested may have answered."
  },
  {
   "property": "C58",
   "status": "partial",
   "theorems": [
    "Verif.Props.C58_evaluate",
    "Verif.Props.C58_unblind",
    "Verif.Props.C58_3hashtdh",
    "Verif.Props.C58_blind_partial",
    "Verif.Props.C58_blind_violated",
    "Verif.Props.C58_finalize_partial",
    "Verif.Props.C58_finalize_violated",
    "Verif.Props.C58_coeff_partial",
    "Verif.Props.C58_coeff_violated",
    "Verif.Props.C58_create_shares_partial",
    "Verif.Props.C58_create_shares_violated",
    "Verif.Props.C58_combine_partial",
    "Verif.Props.C58_combine_violated",
    "Verif.Props.C58_threshold_evaluate_partial",
    "Verif.Props.C58_threshold_evaluate_violated",
    "Verif.Props.C58_dkg_start_partial",
    "Verif.Props.C58_dkg_start_violated",
    "Verif.Props.C58_dkg_verify_partial",
    "Verif.Props.C58_dkg_finish_partial",
    "Verif.Props.C58_dkg_finish_violated",
    "Verif.Props.C58_dkg_reconstruct_partial",
    "Verif.Props.C58_dkg_reconstruct_violated",
    "Verif.Props.C58_peer_start_partial",
    "Verif.Props.C58_peer_start_violated",
    "Verif.Props.C58_start_tp_partial",
    "Verif.Props.C58_start_tp_violated",
    "Verif.Props.C58_next_partial"
   ],
   "note": "Per function the exact checks of the wrapper and that the C function is well defined on its domain. evaluate, unblind and _3hashtdh reject everything else. Violated (proved with witnesses): blind, finalize, coeff, create_shares, thresholdmult, threshold_combine, threshold_evaluate, dkg_start, dkg_finish, dkg_reconstruct, tpdkg_peer_start, tpdkg_start_tp."
  },
  {
   "property": "C59",
   "status": "proved",
   "theorems": [
    "Verif.Props.C59_conforms"
   ],
   "note": "Against a token-by-token specification with HMAC and HKDF."
  },
  {
   "property": "C60",
   "status": "proved",
   "theorems": [
    "Verif.Props.C60_only_known_peers",
    "Verif.Props.C60_add_peer"
   ],
   "note": "Peer names are not modelled."
  },
  {
   "property": "C61",
   "status": "proved",
   "theorems": [
    "Verif.Props.C61_confidentiality",
    "Verif.Props.C61_authentication",
    "Verif.Props.C61_decrypted",
    "Verif.Props.C61_encrypted"
   ],
   "note": "Levels as numbered in the library; also for the helpers of tp-dkg.c that encrypt and decrypt the shares."
  },
  {
   "property": "C62",
   "status": "partial",
   "theorems": [
    "Verif.Props.C62_share_checked_partial",
    "Verif.Props.C62_same_commitments",
    "Verif.Props.C62_tp_confirms",
    "Verif.Props.C62_one_key_partial",
    "Verif.Props.C62_malformed_violated",
    "Verif.Props.C62_own_violated",
    "Verif.Props.C62_top_bit_violated"
   ],
   "note": "Proved for arbitrary messages: same commitments, no complaints, one polynomial and one key, unless two transcripts collide. Violated (proved with witnesses) where the code does not check: malformed commitments hide later dealers, a peer does not check its own dealing against what was broadcast, and the topmost bit of a share is ignored by the verification but not by the sum."
  },
  {
   "property": "C63",
   "status": "partial",
   "theorems": [
    "Verif.Props.C63_grounds",
    "Verif.Props.C63_timely_accepted",
    "Verif.Props.C63_fine_not_reported",
    "Verif.Props.C63_fine_judged",
    "Verif.Props.C63_fine_run_partial",
    "Verif.Props.C63_silence_violated"
   ],
   "note": "Grounds are proved for all steps. A peer that sends nothing wrong is not named in any run, except as the complainer of an unanswered complaint, where the code names the wrong peer (witness)."
  },
  {
   "property": "C64",
   "status": "proved",
   "theorems": [
    "Verif.Props.C64_shares",
    "Verif.Props.C64_deal",
    "Verif.Props.C64_reveal",
    "Verif.Props.C64_defence"
   ],
   "note": "Proved for successful calls in all well-formed states: commitments and shares, the messages with shares, the answer, and the five calls together."
  },
  {
   "property": "C65",
   "status": "partial",
   "theorems": [
    "Verif.Props.C65_complaints",
    "Verif.Props.C65_complete_partial",
    "Verif.Props.C65_no_answer",
    "Verif.Props.C65_malformed_violated"
   ],
   "note": "Every complaint is about a wrong share, whatever the others send. Every wrong share leads to a complaint if the later commitments are well-formed; otherwise violated, with a whole run as witness."
  },
  {
   "property": "C66",
   "status": "partial",
   "theorems": [
    "Verif.Props.C66_refines",
    "Verif.Props.C66_free_partial",
    "Verif.Props.C66_secrets_left_violated",
    "Verif.Props.C66_numbers",
    "Verif.Props.C66_distinct",
    "Verif.Props.C66_found",
    "Verif.Props.C66_view"
   ],
   "note": "device_free leaks the serialisation key and the peers' blocks and erases nothing: C66_secrets_left_violated; C66_free_partial counts what stays. For the memory of sessions see C78."
  },
  {
   "property": "C67",
   "status": "partial",
   "theorems": [
    "Verif.Props.C67_device_round_trip",
    "Verif.Props.C67_device_opens",
    "Verif.Props.C67_peer_round_trip",
    "Verif.Props.C67_device_as_peer_violated",
    "Verif.Props.C67_peer_as_device_violated",
    "Verif.Props.C67_short_violated"
   ],
   "note": "Records of devices and peers are exchangeable (C67_device_as_peer_violated, C67_peer_as_device_violated) and a cut record is read past its end (C67_short_violated). The round trips and the condition for opening hold."
  },
  {
   "property": "C68",
   "status": "partial",
   "theorems": [
    "Verif.Props.C68_session",
    "Verif.Props.C68_delivers_partial",
    "Verif.Props.C68_long_message_violated",
    "Verif.Props.C68_str_prologue_violated",
    "Verif.Props.C68_unknown_peer_violated",
    "Verif.Props.C68_early_pubkey_violated",
    "Verif.Props.C68_responder_first_violated",
    "Verif.Props.C68_short_key_violated",
    "Verif.Props.C68_array_key_violated",
    "Verif.Props.C68_first_reply",
    "Verif.Props.C68_utf8"
   ],
   "note": "Session setup is proved without restriction on the keys; delivery for messages below 2^32 bytes. Violations: C68_long_message_violated, C68_str_prologue_violated, C68_unknown_peer_violated, C68_early_pubkey_violated, C68_responder_first_violated, C68_short_key_violated, C68_array_key_violated."
  },
  {
   "property": "C69",
   "status": "partial",
   "theorems": [
    "Verif.Props.C69_not_blamed",
    "Verif.Props.C69_accepted",
    "Verif.Props.C69_judged_partial",
    "Verif.Props.C69_silence_violated"
   ],
   "note": "Proved for all calls before complaints are judged; in the judging call the peer is named only for a complaint that the accused has not answered, or if the accused knows two keys with the same code on one ciphertext. Violation: C69_silence_violated, a reachable state in which an honest complainer is named."
  },
  {
   "property": "C70",
   "status": "proved",
   "theorems": [
    "Verif.Props.C70_dkg_oprf",
    "Verif.Props.C70_dkg_tdh",
    "Verif.Props.C70_product",
    "Verif.Props.C70_agreed_oprf"
   ],
   "note": "Composes C48/C62, C32 and C16/C13/C20 over the models of all parts; the key 0, which has negligible probability, is noticed by oprf_Unblind."
  },
  {
   "property": "C71",
   "status": "partial",
   "theorems": [
    "Verif.Props.C71_length",
    "Verif.Props.C71_status_partial",
    "Verif.Props.C71_status_turn",
    "Verif.Props.C71_status_violated",
    "Verif.Props.C71_max_security",
    "Verif.Props.C71_max_security_stays",
    "Verif.Props.C71_hash",
    "Verif.Props.C71_peer_id",
    "Verif.Props.C71_ids"
   ],
   "note": "Everything but the status of unusable sessions is proved for all sequences of calls; violation: C71_status_violated, an unusable session still announces a message of the handshake."
  },
  {
   "property": "C72",
   "status": "partial",
   "theorems": [
    "Verif.Props.C72_finalize",
    "Verif.Props.C72_unblind",
    "Verif.Props.C72_dkg_start_partial",
    "Verif.Props.C72_coefficient_left_violated",
    "Verif.Props.C72_blind_partial",
    "Verif.Props.C72_lock_left_violated",
    "Verif.Props.C72_input_left_violated",
    "Verif.Props.C72_share_left_violated",
    "Verif.Props.C72_polynomial_left_violated"
   ],
   "note": "oprf_Finalize and oprf_Unblind proved; oprf_Blind and dkg_start in part. Violations: C72_lock_left_violated, C72_input_left_violated, C72_share_left_violated, C72_polynomial_left_violated, C72_coefficient_left_violated."
  },
  {
   "property": "C73",
   "status": "partial",
   "theorems": [
    "Verif.Props.C73_guess",
    "Verif.Props.C73_offline",
    "Verif.Props.C73_test",
    "Verif.Props.C73_main_guess",
    "Verif.Props.C73_output_violated",
    "Verif.Props.C73_argument_violated"
   ],
   "note": "The attack and the exit status are proved; violations: C73_output_violated (a banner on standard output), C73_argument_violated (reads beyond a short argument)."
  },
  {
   "property": "C74",
   "status": "partial",
   "theorems": [
    "Verif.Props.C74_erased_partial",
    "Verif.Props.C74_used_once",
    "Verif.Props.C74_error_violated",
    "Verif.Props.C74_free_violated"
   ],
   "note": "Proved when the first step succeeds; violations: C74_error_violated (a failed first step keeps the key for good), C74_free_violated (tpdkg_peer_free erases nothing)."
  },
  {
   "property": "C75",
   "status": "proved",
   "theorems": [
    "Verif.Props.C75_commitments_simulated",
    "Verif.Props.C75_shares_statistical"
   ],
   "note": "The bound on the unpaired vectors is part of the statement; it comes from libsodium never drawing 0."
  },
  {
   "property": "C76",
   "status": "proved",
   "theorems": [
    "Verif.Props.C76_mul_statistical"
   ],
   "note": "For shares with the same index and 2 <= t <= n <= 254, as toprf_mpc_mul_start demands."
  },
  {
   "property": "C77",
   "status": "proved",
   "theorems": [
    "Verif.Props.C77_answers_hide"
   ],
   "note": "The hashed session id is assumed not to be the neutral element."
  },
  {
   "property": "C78",
   "status": "partial",
   "theorems": [
    "Verif.Props.C78_refines",
    "Verif.Props.C78_restored",
    "Verif.Props.C78_released",
    "Verif.Props.C78_numbers",
    "Verif.Props.C78_secrets_violated"
   ],
   "note": "Refinement, release and numbers are proved. Erasure is violated: Noise_XK_session_free zeroes nothing (C78_secrets_violated)."
  },
  {
   "property": "C79",
   "status": "proved",
   "theorems": [
    "Verif.Props.C79_refines",
    "Verif.Props.C79_exact",
    "Verif.Props.C79_released"
   ],
   "note": "Both directions of the refinement and the exact number of blocks that are left."
  },
  {
   "property": "C80",
   "status": "proved",
   "theorems": [
    "Verif.Props.C80_program",
    "Verif.Props.C80_released",
    "Verif.Props.C80_exact"
   ],
   "note": "The two cases of C80_released and C80_exact together cover every run; that the second one happens is C50_double_free_violated."
  },
  {
   "property": "C81",
   "status": "proved",
   "theorems": [
    "Verif.Props.C81_model",
    "Verif.Props.C81_blind",
    "Verif.Props.C81_evaluate",
    "Verif.Props.C81_unblind",
    "Verif.Props.C81_finalize"
   ],
   "note": "About the program text: traces of calls, branches and accesses. Time inside libsodium, compiler and hardware are trusted."
  },
  {
   "property": "C82",
   "status": "proved",
   "theorems": [
    "Verif.Props.C82_model",
    "Verif.Props.C82_createShares",
    "Verif.Props.C82_evaluate",
    "Verif.Props.C82_thresholdmult",
    "Verif.Props.C82_thresholdcombine",
    "Verif.Props.C82_3hashtdh",
    "Verif.Props.C82_mulStart",
    "Verif.Props.C82_mulFinish"
   ],
   "note": "As C81. An evaluation under a secret of 0 differs in the return value of libsodium, which the statement allows."
  },
  {
   "property": "C83",
   "status": "proved",
   "theorems": [
    "Verif.Props.C83_model",
    "Verif.Props.C83_start",
    "Verif.Props.C83_verify",
    "Verif.Props.C83_verifyAll",
    "Verif.Props.C83_finish",
    "Verif.Props.C83_reconstruct"
   ],
   "note": "As C81. A coefficient of 0 shows in the return value of crypto_scalarmult_ristretto255_base; libsodium does not draw it."
  },
  {
   "property": "C84",
   "status": "proved",
   "theorems": [
    "Verif.Props.C84_hmac",
    "Verif.Props.C84_kdf",
    "Verif.Props.C84_values"
   ],
   "note": "Libsodium build; the state of the hash is a value."
  },
  {
   "property": "C85",
   "status": "proved",
   "theorems": [
    "Verif.Props.C85_lbytes",
    "Verif.Props.C85_nonce",
    "Verif.Props.C85_mixHash",
    "Verif.Props.C85_split",
    "Verif.Props.C85_mixPsk",
    "Verif.Props.C85_mixDh",
    "Verif.Props.C85_encrypt",
    "Verif.Props.C85_decrypt"
   ],
   "note": "Libsodium build. Decryption in place is excluded: mix_hash reads the ciphertext after it; XK.c does not do that."
  },
  {
   "property": "C86",
   "status": "partial",
   "theorems": [
    "Verif.Props.C86_degree_check_partial",
    "Verif.Props.C86_correct_sharing_refused",
    "Verif.Props.C86_correct_sharing_refused_index",
    "Verif.Props.C86_test_fails"
   ],
   "note": "Violated: correct sharings are refused for all but at most t challenges (C86_correct_sharing_refused, defect 36). Proved: result 0 or 1, malformed elements and the identity are refused."
  },
  {
   "property": "C87",
   "status": "proved",
   "theorems": [
    "Verif.Props.C87_toprf",
    "Verif.Props.C87_mpmul",
    "Verif.Props.C87_dkg",
    "Verif.Props.C87_dkg_counter"
   ],
   "note": "The shares that are 0 with negligible probability make the programs end with an error, as stated."
  },
  {
   "property": "C88",
   "status": "proved",
   "theorems": [
    "Verif.Props.C88_write",
    "Verif.Props.C88_read"
   ],
   "note": "The struct of the session, allocation and freeing are in Model/SessionMem.lean. The buffer of the peer's static key is zero before the responder's last message, as session_create_responder leaves it."
  },
  {
   "property": "C89",
   "status": "proved",
   "theorems": [
    "Verif.Props.C89_write",
    "Verif.Props.C89_read"
   ],
   "note": "As C88."
  },
  {
   "property": "C90",
   "status": "partial",
   "theorems": [
    "Verif.Props.C90_same",
    "Verif.Props.C90_loads_partial",
    "Verif.Props.C90_only",
    "Verif.Props.C90_safe_partial",
    "Verif.Props.C90_rest_ignored_violated",
    "Verif.Props.C90_result_violated",
    "Verif.Props.C90_uninit_violated",
    "Verif.Props.C90_cut_violated",
    "Verif.Props.C90_previous_name_violated",
    "Verif.Props.C90_nameless_violated"
   ],
   "note": "Holds for files of complete lines. The code violates the rest: C90_rest_ignored_violated, C90_result_violated (errors are not reported), C90_uninit_violated, C90_nameless_violated (indeterminate memory is read), C90_cut_violated, C90_previous_name_violated (wrong names)."
  },
  {
   "property": "C91",
   "status": "partial",
   "theorems": [
    "Verif.Props.C91_numbers",
    "Verif.Props.C91_named",
    "Verif.Props.C91_complete",
    "Verif.Props.C91_buffer",
    "Verif.Props.C91_range_violated",
    "Verif.Props.C91_zero_violated"
   ],
   "note": "The texts are right and complete, also in buffers of other sizes up to the terminator (C91_buffer). The set of the wrapper is not: the test of the range is never true (C91_range_violated) and 0 is added (C91_zero_violated)."
  },
  {
   "property": "C92",
   "status": "partial",
   "theorems": [
    "Verif.Props.C92_layout",
    "Verif.Props.C92_agree",
    "Verif.Props.C92_inside_partial",
    "Verif.Props.C92_raises_violated",
    "Verif.Props.C92_align_violated",
    "Verif.Props.C92_word_violated"
   ],
   "note": "The layouts agree on 64-bit platforms and the state is aligned at 32. The code violates the rest: C92_align_violated (64 is needed), C92_raises_violated, C92_word_violated (32-bit platforms)."
  },
  {
   "property": "C93",
   "status": "partial",
   "theorems": [
    "Verif.Props.C93_connected",
    "Verif.Props.C93_after_close",
    "Verif.Props.C93_verified_partial",
    "Verif.Props.C93_cert_violated",
    "Verif.Props.C93_tcp_violated",
    "Verif.Props.C93_send_violated",
    "Verif.Props.C93_reconnect_violated"
   ],
   "note": "Checked without the argument ssl_cert. The code violates the rest: C93_cert_violated, C93_tcp_violated, C93_send_violated, C93_reconnect_violated."
  },
  {
   "property": "C94",
   "status": "partial",
   "theorems": [
    "Verif.Props.C94_shuffle",
    "Verif.Props.C94_reaches",
    "Verif.Props.C94_accepts",
    "Verif.Props.C94_detects_partial",
    "Verif.Props.C94_sample_violated",
    "Verif.Props.C94_wrong_violated"
   ],
   "note": "Correct shares pass; wrong shares are found for some values of rand(), not for all: C94_sample_violated, C94_wrong_violated."
  },
  {
   "property": "C95",
   "status": "partial",
   "theorems": [
    "Verif.Props.C95_network_partial",
    "Verif.Props.C95_queue_violated",
    "Verif.Props.C95_drop_violated",
    "Verif.Props.C95_succeeds_partial",
    "Verif.Props.C95_zero_violated",
    "Verif.Props.C95_refuses",
    "Verif.Props.C95_threshold_violated",
    "Verif.Props.C95_zero_means"
   ],
   "note": "The run succeeds if no share is 0. The code violates the rest: C95_zero_violated (a share that is 0), C95_queue_violated and C95_drop_violated (the network), C95_threshold_violated (undefined behaviour for t < 2)."
  },
  {
   "property": "C96",
   "status": "partial",
   "theorems": [
    "Verif.Props.C96_cfrg",
    "Verif.Props.C96_vector",
    "Verif.Props.C96_update",
    "Verif.Props.C96_sss",
    "Verif.Props.C96_tcombine",
    "Verif.Props.C96_tcombine_violated",
    "Verif.Props.C96_explicit",
    "Verif.Props.C96_native",
    "Verif.Props.C96_combinations_violated",
    "Verif.Props.C96_sss_detects",
    "Verif.Props.C96_3hash_detects"
   ],
   "note": "All tests but test_raw_dkg and test_tp_dkg, which are C99 and C100. The code violates the last part: C96_tcombine_violated (threshold_combine is not tested), C96_combinations_violated (one combination only)."
  },
  {
   "property": "C97",
   "status": "partial",
   "theorems": [
    "Verif.Props.C97_vector_partial",
    "Verif.Props.C97_mlock_fails",
    "Verif.Props.C97_long_input_violated",
    "Verif.Props.C97_header_partial",
    "Verif.Props.C97_odd_violated"
   ],
   "note": "Proved for inputs up to 255 bytes and strings of even length. The code violates the rest: C97_long_input_violated, C97_odd_violated."
  },
  {
   "property": "C98",
   "status": "partial",
   "theorems": [
    "Verif.Props.C98_msg0",
    "Verif.Props.C98_peer_start_partial",
    "Verif.Props.C98_peer_start_violated",
    "Verif.Props.C98_seed_violated",
    "Verif.Props.C98_parser_partial",
    "Verif.Props.C98_parser_violated",
    "Verif.Props.C98_progress"
   ],
   "note": "msg0.c and the loop of the parser are right. The code violates the rest: C98_peer_start_violated, C98_seed_violated (read beyond the key), C98_parser_violated (the session id is printed as data)."
  },
  {
   "property": "C99",
   "status": "partial",
   "theorems": [
    "Verif.Props.C99_shares",
    "Verif.Props.C99_raw_dkg",
    "Verif.Props.C99_detects",
    "Verif.Props.C99_key_violated",
    "Verif.Props.C99_fails_empty"
   ],
   "note": "The test passes and finds shares that do not fit each other. It does not find that the key is not the sum: C99_key_violated. C99_fails_empty: the branch that prints failing peers is never reached."
  },
  {
   "property": "C100",
   "status": "partial",
   "theorems": [
    "Verif.Props.C100_tp_dkg",
    "Verif.Props.C100_example",
    "Verif.Props.C100_example_shares",
    "Verif.Props.C100_name_violated"
   ],
   "note": "The run is right for all clocks within the window. The name is not the one that the test states: C100_name_violated."
  },
  {
   "property": "C101",
   "status": "proved",
   "theorems": [
    "Verif.Props.C101_differs",
    "Verif.Props.C101_rejected",
    "Verif.Props.C101_altered",
    "Verif.Props.C101_complaints"
   ],
   "note": ""
  },
  {
   "property": "C102",
   "status": "partial",
   "theorems": [
    "Verif.Props.C102_announcement",
    "Verif.Props.C102_received_partial",
    "Verif.Props.C102_timeout_violated",
    "Verif.Props.C102_init",
    "Verif.Props.C102_transcript_violated",
    "Verif.Props.C102_transcript_binds",
    "Verif.Props.C102_complaints_violated"
   ],
   "note": "The announcement has the documented fields, the initial transcript is the documented one, and the transcript binds the messages. The code differs from the documentation: C102_timeout_violated (the window), C102_transcript_violated (the update), C102_complaints_violated (no limit per peer)."
  },
  {
   "property": "C103",
   "status": "partial",
   "theorems": [
    "Verif.Props.C103_accepted_partial",
    "Verif.Props.C103_rejected",
    "Verif.Props.C103_any_file",
    "Verif.Props.C103_no_file",
    "Verif.Props.C103_rest_ignored_violated",
    "Verif.Props.C103_cut_violated"
   ],
   "note": "Acceptance, refusal and the printed text hold for all keys, and the refusal for all files. Peers after a faulty line are refused: C103_rest_ignored_violated. The text for the initiator is cut: C103_cut_violated."
  },
  {
   "property": "C104",
   "status": "proved",
   "theorems": [
    "Verif.Props.C104_refines",
    "Verif.Props.C104_released",
    "Verif.Props.C104_independent",
    "Verif.Props.C104_talk"
   ],
   "note": "Refinement of every program with any number of devices, the exact number of blocks that are left, independence of each device from all others, and the course of a conversation of two devices on one heap."
  },
  {
   "property": "C105",
   "status": "partial",
   "theorems": [
    "Verif.Props.C105_masks",
    "Verif.Props.C105_struct",
    "Verif.Props.C105_shifts",
    "Verif.Props.C105_products",
    "Verif.Props.C105_compilers_partial",
    "Verif.Props.C105_msvc_not_violated",
    "Verif.Props.C105_bytes_partial",
    "Verif.Props.C105_nonce_violated",
    "Verif.Props.C105_bytes128_partial",
    "Verif.Props.C105_loops"
   ],
   "note": "All functions are right for all operands, except two: the complement in the implementation for MSVC is 0 for every number (C105_msvc_not_violated), and store64_le on an unknown big-endian platform writes the bytes of each half in the wrong order (C105_nonce_violated)."
  },
  {
   "property": "C106",
   "status": "partial",
   "theorems": [
    "Verif.Props.C106_accepted_partial",
    "Verif.Props.C106_refused",
    "Verif.Props.C106_same",
    "Verif.Props.C106_any_file",
    "Verif.Props.C106_undefined",
    "Verif.Props.C106_left_violated",
    "Verif.Props.C106_no_file_violated"
   ],
   "note": "Same result as the program on values for all files and heaps (C106_same), existing memory untouched, and undefined behaviour only while the file is loaded. Not everything is released: after success the keys for storage and the records of the peers are left (exact number in C106_accepted_partial), after a refusal or without file also both private keys (C106_left_violated, C106_no_file_violated)."
  },
  {
   "property": "C107",
   "status": "partial",
   "theorems": [
    "Verif.Props.C107_peer_early_violated",
    "Verif.Props.C107_skipped",
    "Verif.Props.C107_refused",
    "Verif.Props.C107_restored_partial",
    "Verif.Props.C107_peer_skipped",
    "Verif.Props.C107_peer_refused",
    "Verif.Props.C107_peer_restored_partial",
    "Verif.Props.C107_peer_network_violated",
    "Verif.Props.C107_stale_violated",
    "Verif.Props.C107_no_cases",
    "Verif.Props.C107_peer_no_cases",
    "Verif.Props.C107_fuzzing_violated"
   ],
   "note": "Short cases are skipped, a refused case ends the program, the structures are put back, and without cases the main loop is that of the test program (C107_skipped, C107_refused, C107_restored_partial, C107_no_cases, and for the variant for peers C107_peer_*). Violated: in steps 1 and 4 no case runs to the end of the protocol, because the output of the fuzzed step is sent again (C107_stale_violated, and C107_fuzzing_violated for the trusted party of the library built for fuzzing); arrays behind the pointers and the network are not put back, so that in the variant for peers the second case runs without the messages of the other peers (C107_peer_network_violated); and there the cases come one round too early, while the second peer has not yet used its message (C107_peer_early_violated)."
  },
  {
   "property": "C108",
   "status": "proved",
   "theorems": [
    "Verif.Props.C108_accepts",
    "Verif.Props.C108_refuses",
    "Verif.Props.C108_only",
    "Verif.Props.C108_fields",
    "Verif.Props.C108_tp",
    "Verif.Props.C108_peer",
    "Verif.Props.C108_peer_start"
   ],
   "note": "Seven theorems, for messages of all lengths; C108_fields for lengths from 111 bytes on, which is what all callers pass. C108_tp, C108_peer and C108_peer_start are about whole steps, with a clock that stands still during a step."
  },
  {
   "property": "C109",
   "status": "partial",
   "theorems": [
    "Verif.Props.C109_content",
    "Verif.Props.C109_seed",
    "Verif.Props.C109_short",
    "Verif.Props.C109_not_reached",
    "Verif.Props.C109_args",
    "Verif.Props.C109_no_step_violated",
    "Verif.Props.C109_unwritable_violated",
    "Verif.Props.C109_peer_content",
    "Verif.Props.C109_peer_not_reached"
   ],
   "note": "The content of the file, its use as a test case, the end without a file and the arguments are proved (C109_content, C109_seed, C109_short, C109_not_reached, C109_args, and for peers C109_peer_content, C109_peer_not_reached). Violated: without a step the program reads from NULL, although the usage message allows it (C109_no_step_violated); a file that cannot be opened is not noticed (C109_unwritable_violated)."
  }
 ]
}