{
 "claims": [
  {
   "property": "C01",
   "status": "proved",
   "theorems": [
    "Verif.IntConv.C01_int64_roundtrip",
    "Verif.IntConv.C01_bytesToInt64_value",
    "Verif.IntConv.C01_int64_unique"
   ],
   "note": ""
  },
  {
   "property": "C02",
   "status": "proved",
   "theorems": [
    "Verif.IntConv.C02_uint64_roundtrip",
    "Verif.IntConv.C02_bytesToUint64_value"
   ],
   "note": ""
  },
  {
   "property": "C03",
   "status": "proved",
   "theorems": [
    "Verif.IntConv.C03_size_roundtrip",
    "Verif.IntConv.C03_bytesToSize_value",
    "Verif.IntConv.C03_size_minimal"
   ],
   "note": ""
  },
  {
   "property": "C04",
   "status": "proved",
   "theorems": [
    "Verif.IntConv.C04_bigInt_roundtrip",
    "Verif.IntConv.C04_bigIntSetBytes_value",
    "Verif.IntConv.C04_bigInt_bijection",
    "Verif.IntConv.C04_encoders_agree"
   ],
   "note": ""
  },
  {
   "property": "C05",
   "status": "proved",
   "theorems": [
    "Verif.IntText.C05_format_text",
    "Verif.IntText.C05_bigInt_roundtrip",
    "Verif.IntText.C05_int_roundtrip",
    "Verif.IntText.C05_uint_roundtrip"
   ],
   "note": "strconv and encoding/hex are modelled from their documented behaviour"
  },
  {
   "property": "C06",
   "status": "proved",
   "theorems": [
    "Verif.Rlp.C06_wire_format",
    "Verif.Rlp.C06_roundtrip",
    "Verif.Rlp.C06_roundtrip_top",
    "Verif.Rlp.C06_normal_form",
    "Verif.Rlp.C06_nilable_targets"
   ],
   "note": "interface{} values and msgpack are not modelled; maps and custom RLPEncodeSelf methods are in C154"
  },
  {
   "property": "C07",
   "status": "proved",
   "theorems": [
    "Verif.Rlp.C07_readRaw",
    "Verif.Rlp.C07_prefix_free",
    "Verif.Rlp.C07_injective",
    "Verif.Rlp.C07_stream"
   ],
   "note": ""
  },
  {
   "property": "C08",
   "status": "partial",
   "theorems": [
    "Verif.Rlp.C08_list_truncation_accepted",
    "Verif.Rlp.C08_scalar_truncation_partial",
    "Verif.Rlp.C08_list_truncation_partial"
   ],
   "note": "false for lists (negation proved); proved for scalars, and lists of scalars truncate to a shorter beginning or an error"
  },
  {
   "property": "C09",
   "status": "partial",
   "theorems": [
    "Verif.Rlp.C09_noncanonical_accepted",
    "Verif.Rlp.C09_canonical_partial"
   ],
   "note": "false (negation proved); for strings canonical header is equivalent to being the encoder output"
  },
  {
   "property": "C10",
   "status": "partial",
   "theorems": [
    "Verif.Rlp.C10_panic_reachable",
    "Verif.Rlp.C10_no_panic_partial",
    "Verif.Rlp.C10_no_long_headers_partial",
    "Verif.Rlp.C10_raw_panics"
   ],
   "note": "false (negation proved): a nine byte input makes the decoder panic; no other cause of panics exists"
  },
  {
   "property": "C11",
   "status": "partial",
   "theorems": [
    "Verif.Mbt.C11_bulk_root",
    "Verif.Mbt.C11_nil_content",
    "Verif.Mbt.C11_add_deviates",
    "Verif.Mbt.C11_add_commits_partial"
   ],
   "note": "The bulk constructor gives the specified Merkle root for every list. The full statement (Add one by one gives the same root) is false: C11_add_deviates is a witness with 8 contents. C11_add_commits_partial shows what Add does guarantee: the tree commits to all contents in order."
  },
  {
   "property": "C12",
   "status": "proved",
   "theorems": [
    "Verif.Mbt.C12_path"
   ],
   "note": ""
  },
  {
   "property": "C13",
   "status": "proved",
   "theorems": [
    "Verif.Mbt.C13_range_proof",
    "Verif.Mbt.C13_out_of_range"
   ],
   "note": ""
  },
  {
   "property": "C14",
   "status": "partial",
   "theorems": [
    "Verif.Mbt.C14_soundness_partial",
    "Verif.Mbt.C14_negative_count_forgery",
    "Verif.Mbt.C14_zero_count_forgery"
   ],
   "note": "Sound when the leaf counts are positive and do not overflow. Without that the statement is false: C14_negative_count_forgery builds an accepted proof with a false offset from any 16 messages, C14_zero_count_forgery one with a foreign message."
  },
  {
   "property": "C15",
   "status": "proved",
   "theorems": [
    "Verif.Mbt.C15_java_accepts",
    "Verif.SolProof.C15_solidity_accepts"
   ],
   "note": "Message lists shorter than 2^31 (Java int) and 2^63 (Solidity, limit of the relay)."
  },
  {
   "property": "C16",
   "status": "proved",
   "theorems": [
    "Verif.Mta.C16_structure"
   ],
   "note": "For every history of additions, queries, partially failing flushes and crashes with recovery in which no two different node values are written under one hash key. "
  },
  {
   "property": "C17",
   "status": "proved",
   "theorems": [
    "Verif.Mta.C17_witness",
    "Verif.Mta.C17_add_witness"
   ],
   "note": "For every history of additions, queries, partially failing flushes and crashes with recovery in which no two different node values are written under one hash key. "
  },
  {
   "property": "C18",
   "status": "partial",
   "theorems": [
    "Verif.Mta.C18_sound_partial",
    "Verif.Mta.C18_long_hash_accepted"
   ],
   "note": "For every history of additions, queries, partially failing flushes and crashes with recovery in which no two different node values are written under one hash key. Sound for 32-byte hashes; false for longer ones: Verify ignores everything after the 32nd byte of the hash (C18_long_hash_accepted)."
  },
  {
   "property": "C19",
   "status": "proved",
   "theorems": [
    "Verif.Mta.C19_prefix_witness"
   ],
   "note": "For every history of additions, queries, partially failing flushes and crashes with recovery in which no two different node values are written under one hash key. "
  },
  {
   "property": "C20",
   "status": "partial",
   "theorems": [
    "Verif.Mta.C20_newer_accepts",
    "Verif.Mta.C20_older_iff_partial",
    "Verif.Mta.C20_older_refused",
    "Verif.Mta.C20_older_panics"
   ],
   "note": "For every history of additions, queries, partially failing flushes and crashes with recovery in which no two different node values are written under one hash key. True for an accumulator newer than the witness. False for an older one: C20_older_iff_partial gives the exact condition, C20_older_refused and C20_older_panics concrete cases for every hash function."
  },
  {
   "property": "C21",
   "status": "proved",
   "theorems": [
    "Verif.Mta.C21_wire"
   ],
   "note": "For every history of additions, queries, partially failing flushes and crashes with recovery in which no two different node values are written under one hash key. "
  },
  {
   "property": "C22",
   "status": "proved",
   "theorems": [
    "Verif.Mta.C22_progress",
    "Verif.Mta.C22_crash",
    "Verif.Mta.C22_flush_total"
   ],
   "note": "For every history of additions, queries, partially failing flushes and crashes with recovery in which no two different node values are written under one hash key. The record format (JSON) is a parameter with dec (enc s) = s; the state key is not 32 bytes long; a single database write is atomic."
  },
  {
   "property": "C23",
   "status": "partial",
   "theorems": [
    "Verif.Mta.C23_ext_partial",
    "Verif.Mta.C23_other_offset",
    "Verif.Mta.C23_low_height",
    "Verif.Mta.C23_recover"
   ],
   "note": "For every history of additions, queries, partially failing flushes and crashes with recovery in which no two different node values are written under one hash key. Heights at or below the offset are not rejected: the witness of the first leaf is returned (C23_low_height). Recover with another offset reports an error but replaces the roots (C23_recover)."
  },
  {
   "property": "C24",
   "status": "proved",
   "theorems": [
    "Verif.Fragment.C24_roundtrip",
    "Verif.Fragment.C24_size",
    "Verif.Fragment.C24_history"
   ],
   "note": "Also for arbitrary interleavings of accepted and refused calls (C24_history). Integer texts and base64 are taken as faithful."
  },
  {
   "property": "C25",
   "status": "partial",
   "theorems": [
    "Verif.Serialize.C25_serialize_injective_partial",
    "Verif.Serialize.C25_filter",
    "Verif.Serialize.C25_leading_empty_lost",
    "Verif.Serialize.C25_number_as_text",
    "Verif.Serialize.C25_not_injective",
    "Verif.Serialize.C25_decimal",
    "Verif.Serialize.C25_decimal_injective"
   ],
   "note": "False of the code: an empty string at the front of a list leaves no trace and a number is signed as its decimal text (C25_not_injective). Proved: injective for content without numbers in which no list begins with an empty string. Map iteration order: entries are given in sorted key order."
  },
  {
   "property": "C26",
   "status": "partial",
   "theorems": [
    "Verif.BtpAddress.C26_go_parts",
    "Verif.BtpAddress.C26_go_network",
    "Verif.BtpAddress.C26_sol_parse_iff",
    "Verif.BtpAddress.C26_java_parse",
    "Verif.BtpAddress.C26_java_sol_agree",
    "Verif.BtpAddress.C26_go_sol_agree",
    "Verif.BtpAddress.C26_fails"
   ],
   "note": "All parts are returned and the three parsers agree on btp addresses whose account has no '/'. The relay's validation accepts only icon and iconee, the account may hide a '/' from the relay, and Java accepts other protocols (C26_fails)."
  },
  {
   "property": "C27",
   "status": "partial",
   "theorems": [
    "Verif.Address.C27_string_roundtrip",
    "Verif.Address.C27_bytes_roundtrip",
    "Verif.Address.C27_string_injective",
    "Verif.Address.C27_canonical_text",
    "Verif.Address.C27_setters_wf",
    "Verif.Address.C27_independent_partial",
    "Verif.Address.C27_short_id",
    "Verif.Address.C27_text_value",
    "Verif.Address.C27_stale_bytes",
    "Verif.Address.C27_bad_bytes",
    "Verif.Address.C27_public_key",
    "Verif.Address.C27_equal",
    "Verif.Address.C27_no_prefix"
   ],
   "note": "Round trips hold for every address and earlier content. Independence of the earlier content fails for ids shorter than 20 bytes (C27_stale_bytes)."
  },
  {
   "property": "C28",
   "status": "partial",
   "theorems": [
    "Verif.LayerDb.C28_before_flush",
    "Verif.LayerDb.C28_flush_true",
    "Verif.LayerDb.C28_flush_false",
    "Verif.LayerDb.C28_history",
    "Verif.LayerDb.C28_map_partial",
    "Verif.LayerDb.C28_level_partial",
    "Verif.LayerDb.C28_map_empty_key",
    "Verif.LayerDb.C28_level_shared_slot",
    "Verif.LayerDb.C28_nil_value"
   ],
   "note": "Every history is that of one map, on backends that accept every key and give every (bucket, key) its own slot. False: over the map database a staged empty key makes Flush fail half way; over goleveldb ids that are prefixes of one another share slots."
  },
  {
   "property": "C29",
   "status": "partial",
   "theorems": [
    "Verif.LayerDb.C29_map",
    "Verif.LayerDb.C29_level_exact",
    "Verif.LayerDb.C29_level_partial",
    "Verif.LayerDb.C29_ids_partial",
    "Verif.LayerDb.C29_merkle_trie_shared",
    "Verif.LayerDb.C29_hash_keys_partial"
   ],
   "note": "Exact: two buckets of goleveldb share a slot iff one id extends the other and the keys differ by that suffix. The empty id MerkleTrie shares slots with all others; hash-length keys are safe."
  },
  {
   "property": "C30",
   "status": "partial",
   "theorems": [
    "Verif.Link.C30_result_never_returns",
    "Verif.Link.C30_receive_unaffected_partial"
   ],
   "note": "False: no call of the result handler ever returns (deferred Lock instead of Unlock). What holds: nothing else touches the lock."
  },
  {
   "property": "C31",
   "status": "partial",
   "theorems": [
    "Verif.Link.C31_remove_keeps_the_finished",
    "Verif.Link.C31_remove_unknown",
    "Verif.Link.C31_remove_partial",
    "Verif.Link.C31_clear_first",
    "Verif.Link.C31_clear_shared",
    "Verif.Link.C31_search",
    "Verif.Link.C31_clear_status"
   ],
   "note": "False: the finished message stays and all in front of it are discarded. What holds: nothing is reordered or invented."
  },
  {
   "property": "C32",
   "status": "partial",
   "theorems": [
    "Verif.Receiver.C32_bridge_only_last",
    "Verif.Receiver.C32_bridge_single_partial",
    "Verif.Receiver.C32_bridge_empty_block_panics",
    "Verif.Receiver.C32_bridge_partly_delivered",
    "Verif.Receiver.C32_refused"
   ],
   "note": "False for every block with two or more messages; holds for one message."
  },
  {
   "property": "C33",
   "status": "partial",
   "theorems": [
    "Verif.Receiver.C33_btp2_part",
    "Verif.Receiver.C33_btp2_first_partial",
    "Verif.Receiver.C33_btp2_overshoots",
    "Verif.Receiver.C33_btp2_next_block_skips"
   ],
   "note": "False for every part after the first: the reported number is too high by the offset. Holds for a proof from the first message."
  },
  {
   "property": "C34",
   "status": "partial",
   "theorems": [
    "Verif.Receiver.C34_ethbr_panics",
    "Verif.Receiver.C34_status_last",
    "Verif.Receiver.C34_multi_event_block_panics",
    "Verif.Receiver.C34_single_event_partial",
    "Verif.Receiver.C34_link_panics"
   ],
   "note": "False for blocks with two or more events (nil dereference); holds for one event."
  },
  {
   "property": "C35",
   "status": "partial",
   "theorems": [
    "Verif.Errors.C35_code_outermost",
    "Verif.Errors.C35_code_panics",
    "Verif.Errors.C35_wraps_keep_code",
    "Verif.Errors.C35_withCode",
    "Verif.Errors.C35_wrapc",
    "Verif.Errors.C35_is",
    "Verif.Errors.C35_revert_code",
    "Verif.Errors.C35_negative_is_nil",
    "Verif.Errors.C35_class_partial",
    "Verif.Errors.C35_bmv_unknown_misnamed",
    "Verif.Errors.C35_bmv_names",
    "Verif.Errors.C35_apply_recover",
    "Verif.Errors.C35_apply_type",
    "Verif.Errors.C35_apply_injective",
    "Verif.Errors.C35_apply_accepts",
    "Verif.Errors.C35_valueOf_wrong",
    "Verif.Errors.C35_of_keeps_code",
    "Verif.Errors.C35_of_code_of_type",
    "Verif.Errors.C35_ofType_bsh",
    "Verif.Sender.C35_end_to_end",
    "Verif.Errors.C35_equals",
    "Verif.Errors.C35_bmc_names_partial",
    "Verif.Errors.C35_bmc_names_witness",
    "Verif.Errors.C35_errorc",
    "Verif.Errors.C35_of_other"
   ],
   "note": "Codes: proved. The class in the relay's message is wrong exactly for 10, 25, 40 and 55; the type the Java code looks up from a code is wrong for every code below 40. The names of the message center codes 9-12 differ from the contracts (C35_bmc_names_witness)."
  },
  {
   "property": "C36",
   "status": "partial",
   "theorems": [
    "Verif.Wallet.C36_rsv",
    "Verif.Wallet.C36_rs",
    "Verif.Wallet.C36_lengths",
    "Verif.Wallet.C36_vrs_panics",
    "Verif.Wallet.C36_wallet_sign"
   ],
   "note": "RSV and RS: proved. ParseSignatureVRS crashes on every 65-byte input."
  },
  {
   "property": "C37",
   "status": "partial",
   "theorems": [
    "Verif.Wallet.C37_roundtrip",
    "Verif.Wallet.C37_wallet",
    "Verif.Wallet.C37_address",
    "Verif.Wallet.C37_encrypts",
    "Verif.Wallet.C37_wrong_mac",
    "Verif.Wallet.C37_sound",
    "Verif.Wallet.C37_other_password",
    "Verif.Wallet.C37_bad_iv_panics",
    "Verif.Wallet.C37_changed_iv"
   ],
   "note": "Round trip, wrong password and address: proved. A key store with an iv of the wrong length crashes instead of an error; the iv is not under the MAC."
  },
  {
   "property": "C38",
   "status": "partial",
   "theorems": [
    "Verif.Sender.C38_sends",
    "Verif.Sender.C38_duplicate_empty_hash",
    "Verif.Sender.C38_other_replies_fail",
    "Verif.Sender.C38_success_partial",
    "Verif.Sender.C38_success_without_acceptance",
    "Verif.Sender.C38_short_message_panics",
    "Verif.Sender.C38_nil_error_panics",
    "Verif.Sender.C38_returns_iff",
    "Verif.Sender.C38_relay_in_order",
    "Verif.Sender.C38_relay_delivers",
    "Verif.Sender.C38_client_gaps"
   ],
   "note": "Re-sending, re-signing, duplicates and termination: exact. False: a duplicate is reported as success with an empty hash, so its result is never found; short system errors crash. Success with a hash implies acceptance."
  },
  {
   "property": "C39",
   "status": "partial",
   "theorems": [
    "Verif.BmvBridge.C39_java_partial",
    "Verif.BmvBridge.C39_array_wrong",
    "Verif.BmvBridge.C39_witness"
   ],
   "note": "The messages collected are exactly the events that continue the sequence, in order; but the array returned is sized and filled wrongly (C39_array_wrong), so the property is false of the code as it stands."
  },
  {
   "property": "C40",
   "status": "partial",
   "theorems": [
    "Verif.BmvBridge.C40_sound",
    "Verif.BmvBridge.C40_truthful",
    "Verif.BmvBridge.C40_complete",
    "Verif.BmvBridge.C40_nothing_dropped",
    "Verif.BmvBridge.C40_foreign_event_blocks"
   ],
   "note": "Soundness, completeness for well-formed relay messages, and no event left behind. An event for another BMC with a number beyond the expected one blocks the relay message (C40_foreign_event_blocks)."
  },
  {
   "property": "C41",
   "status": "partial",
   "theorems": [
    "Verif.SolBmc.C41_in_order_partial",
    "Verif.SolBmc.C41_bridge_faithful",
    "Verif.SolBmc.Demo.faithful",
    "Verif.SolBmc.Demo.C41_reentrance_witness",
    "Verif.JavaBmc.C41_java_exactly_once",
    "Verif.JavaBmc.C41_java_removed_links",
    "Verif.JavaBmc.C41_java_generations",
    "Verif.JavaBmc.C41_java_in_order_partial",
    "Verif.JavaBmc.Demo.faithful",
    "Verif.JavaBmc.Demo.C41_java_reentrance_witness"
   ],
   "note": "Solidity BMC: any history with nested service calls, provided no service re-enters the BMC for the link it is called from; false without (C41_reentrance_witness). ICON BMC: exactly once for every history with arbitrary re-entrance; in order if called contracts make no relay call; out of order otherwise (C41_java_reentrance_witness)."
  },
  {
   "property": "C42",
   "status": "proved",
   "theorems": [
    "Verif.SolBmc.C42_consecutive",
    "Verif.SolBmc.C42_all_events",
    "Verif.JavaBmc.C42_java_consecutive"
   ],
   "note": "Both BMCs, any history with arbitrarily nested service calls."
  },
  {
   "property": "C43",
   "status": "partial",
   "theorems": [
    "Verif.SolRoutes.C43_registered",
    "Verif.SolRoutes.C43_delivery",
    "Verif.JavaBmc.C43_java_delivery",
    "Verif.JavaBmc.C43_java_added",
    "Verif.JavaBmc.C43_java_half_stays",
    "Verif.JavaBmc.C43_java_removed_partial",
    "Verif.JavaBmc.Demo.C43_java_stale_relay_witness"
   ],
   "note": "Solidity BMC: proved for all histories. ICON BMC: delivery needs a registered relay; false for removal: removeLink leaves the first half of the relays (C43_java_half_stays, witness); true with at most one relay."
  },
  {
   "property": "C44",
   "status": "partial",
   "theorems": [
    "Verif.SolBmc.C44_conserved_partial",
    "Verif.SolBmc.C44_handleFee",
    "Verif.SolBmc.Demo.C44_value_lost_witness",
    "Verif.JavaBmc.C44_java_conserved_partial",
    "Verif.JavaBmc.C44_java_forward",
    "Verif.JavaBmc.Demo.C44_java_collected_twice_witness",
    "Verif.JavaBmc.Demo.C44_java_drop_lost_witness",
    "Verif.JavaBmc.Demo.C44_java_value_lost_witness"
   ],
   "note": "Exact ledger per currency over any history for both BMCs. Not conserved: value sent with a claim of the own currency (both); ICON: fee of a failed one-way message collected twice, fee of a dropped one-way message lost (witnesses)."
  },
  {
   "property": "C45",
   "status": "partial",
   "theorems": [
    "Verif.SolBmc.C45_settled_once",
    "Verif.SolBmc.C45_refund",
    "Verif.SolBmc.C45_destination",
    "Verif.SolBmc.Demo.C45_spoofed_response_witness",
    "Verif.JavaBmc.C45_java_settled_once",
    "Verif.JavaBmc.C45_java_refund",
    "Verif.JavaBmc.C45_java_always_credited",
    "Verif.JavaBmc.Demo.C45_java_credited_and_refunded_witness",
    "Verif.JavaBmc.Demo.C45_java_spoofed_response_witness"
   ],
   "note": "Solidity: each side exact, false over several networks because the response's source is not checked. ICON: origin exact; destination credits even if the response fails and an error goes back (C45_java_always_credited, witness): paid twice."
  },
  {
   "property": "C46",
   "status": "proved",
   "theorems": [
    "Verif.EnumDict.C46_map",
    "Verif.EnumDict.C46_enumeration"
   ],
   "note": "Refinement to a function map, all operation sequences including clear; keys compared by value."
  },
  {
   "property": "C47",
   "status": "proved",
   "theorems": [
    "Verif.JavaBmc.C47_java_resolve_order",
    "Verif.JavaBmc.C47_java_resolved_link"
   ],
   "note": "ICON BMC, every history with nested calls."
  },
  {
   "property": "C48",
   "status": "partial",
   "theorems": [
    "Verif.SolRoutes.C48_consistent_partial",
    "Verif.SolRoutes.C48_removable_partial",
    "Verif.SolRoutes.C48_unlink_partial",
    "Verif.SolRoutes.Demo.C48_link_over_reachable_witness",
    "Verif.SolRoutes.Demo.C48_manual_over_link_witness",
    "Verif.SolRoutes.Demo.C48_unlink_deletes_link_witness",
    "Verif.SolRoutes.Demo.C48_duplicate_report_witness",
    "Verif.SolRoutes.Demo.C48_false_withdrawal_witness"
   ],
   "note": "False in general (five witnesses). The partial theorems hold for all histories in which a link is only added for a network without a route, no manual route is added over a direct link, each link reports each network at most once and never a directly linked one, and withdraws only what it reported."
  },
  {
   "property": "C49",
   "status": "partial",
   "theorems": [
    "Verif.JavaBtpBlock.C49_java_in_order_partial",
    "Verif.JavaBtpBlock.C49_java_sequence",
    "Verif.JavaBtpBlock.C49_java_zero_count_forgery",
    "Verif.JavaBtpBlock.C49_java_network"
   ],
   "note": "Proved for histories whose accepted proofs have positive leaf counts that fit an int, offset 0 and a first block starting at message 0. False for proofs with a leaf count of 0: forgery for every state waiting for one message."
  },
  {
   "property": "C50",
   "status": "partial",
   "theorems": [
    "Verif.SolBtpBlock.C50_solidity_in_order_partial",
    "Verif.SolBtpBlock.C50_solidity_sequence",
    "Verif.SolBtpBlock.C50_solidity_replay",
    "Verif.SolBtpBlock.C50_solidity_zero_count_forgery"
   ],
   "note": "Numbers proved in full. In-order delivery proved for histories whose accepted proofs have positive leaf counts and start where the last one ended. False in general: the position of a proof is not checked, so for every block the first messages can be delivered twice instead of later ones; a leaf count of 0 lets a forged message through."
  },
  {
   "property": "C51",
   "status": "partial",
   "theorems": [
    "Verif.JavaBtpBlock.C51_java_one_step",
    "Verif.JavaBtpBlock.C51_java_two_networks_partial",
    "Verif.JavaBtpBlock.C51_java_deep_wrong",
    "Verif.SolBtpBlock.C51_solidity_root"
   ],
   "note": "EVM verifier: full, every depth. ICON verifier: right for at most two networks; for every longer path the root is wrong (each step restarts from the leaf)."
  },
  {
   "property": "C52",
   "status": "partial",
   "theorems": [
    "Verif.JavaBtpBlock.C52_java_quorum",
    "Verif.JavaBtpBlock.C52_java_accepted",
    "Verif.SolBtpBlock.C52_solidity_quorum",
    "Verif.SolBtpBlock.C52_solidity_update",
    "Verif.SolBtpBlock.C52_solidity_accepts",
    "Verif.SolBtpBlock.C52_solidity_accepted_partial",
    "Verif.SolBtpBlock.C52_solidity_duplicate_witness",
    "Verif.SolBtpBlock.C52_recover"
   ],
   "note": "ICON verifier: full. EVM verifier: full for validator lists without duplicates; a validator named more than once is counted more than once, for every list of copies."
  },
  {
   "property": "C53",
   "status": "proved",
   "theorems": [
    "Verif.XCall.C53_executed_once",
    "Verif.XCall.C53_executed_received",
    "Verif.XCall.C53_ids",
    "Verif.XCall.C53_one_result",
    "Verif.XCall.C53_code",
    "Verif.XCall.C53_failed_call"
   ],
   "note": "Both languages, with contracts that call back."
  },
  {
   "property": "C54",
   "status": "proved",
   "theorems": [
    "Verif.XCall.C54_rollback_once",
    "Verif.XCall.C54_rollback_after_failure",
    "Verif.XCall.C54_response",
    "Verif.XCall.C54_sns"
   ],
   "note": "Both languages, with contracts that call back."
  },
  {
   "property": "C55",
   "status": "partial",
   "theorems": [
    "Verif.XCall.C55_any_network",
    "Verif.XCall.C55_honest_partial"
   ],
   "note": "False: for every pending call a response from any network settles it (success as well as failure, after which the rollback runs). Holds if the services of all connected networks are honest."
  },
  {
   "property": "C56",
   "status": "proved",
   "theorems": [
    "Verif.SolRoutes.C56_never_ownerless",
    "Verif.SolRoutes.C56_only_owners",
    "Verif.JavaOwners.C56_java_owners",
    "Verif.JavaOwners.C56_java_only_owners",
    "Verif.JavaOwners.C56_java_once_partial",
    "Verif.JavaOwners.C56_java_twice_witness"
   ],
   "note": "Both contracts. On ICON an account the platform makes contract owner may be listed twice by getOwners (witness); membership is still exact."
  },
  {
   "property": "C57",
   "status": "partial",
   "theorems": [
    "Verif.MptProof.C57_accepted",
    "Verif.MptProof.C57_node_kind",
    "Verif.MptProof.C57_chain_partial",
    "Verif.MptProof.C57_appended_leaf",
    "Verif.MptProof.C57_last_not_leaf_panics",
    "Verif.MptProof.C57_empty_path_panics",
    "Verif.MptProof.C57_empty",
    "Verif.MptProof.C57_root_determines_partial"
   ],
   "note": "False: nothing links what follows a leaf, and a list that does not end with a leaf crashes. Chain proved for lists with one leaf, at the end."
  },
  {
   "property": "C58",
   "status": "partial",
   "theorems": [
    "Verif.IconOptions.C58_roundtrip_partial",
    "Verif.IconOptions.C58_exact",
    "Verif.IconOptions.C58_typed",
    "Verif.IconOptions.C58_typed_admissible"
   ],
   "note": "Exact: the options survive iff no key is empty or holds a comma or an equals sign and no value holds a comma. Nothing is escaped or refused."
  },
  {
   "property": "C59",
   "status": "partial",
   "theorems": [
    "Verif.SolRlp.C59_uint",
    "Verif.SolRlp.C59_int",
    "Verif.SolRlp.C59_list_header",
    "Verif.SolRlp.C59_btp_message_roundtrip_partial",
    "Verif.SolRlp.C59_btp_message_relay_partial",
    "Verif.SolRlp.C59_bmc_message_roundtrip_partial",
    "Verif.SolRlp.C59_propagate_roundtrip_partial",
    "Verif.SolRlp.C59_response_roundtrip_partial",
    "Verif.SolRlp.C59_init_roundtrip_partial",
    "Verif.SolRlp.C59_call_message_roundtrip_partial",
    "Verif.SolRlp.C59_call_request_roundtrip_partial",
    "Verif.SolRlp.C59_call_response_roundtrip_partial",
    "Verif.SolRlp.C59_byte_80_witness",
    "Verif.SolRlp.C59_length_255_witness",
    "Verif.SolRlp.C59_nsn_128_witness",
    "Verif.SolRlp.C59_payload_80_witness"
   ],
   "note": "Proved for all structures whose strings are not the single byte 0x80 and whose numbers are not -128 and below 2^127 / 2^128-1; the relay form also needs list lengths that are not 256^k-1. False otherwise: witnesses for a payload [0x80] (arrives empty), nsn -128 (undecodable) and payload length 255 (non-canonical header)."
  },
  {
   "property": "C60",
   "status": "partial",
   "theorems": [
    "Verif.Monitor.C60_delivered",
    "Verif.Monitor.C60_exact",
    "Verif.Monitor.C60_prefix",
    "Verif.Monitor.C60_start_ahead",
    "Verif.Monitor.C60_poll",
    "Verif.Monitor.C60_poll_gives_up"
   ],
   "note": "Proved over polling. Over a subscription exact: holds iff the start is not beyond the first head and each head follows the last; heads that skip or repeat are passed on as they come."
  },
  {
   "property": "C61",
   "status": "proved",
   "theorems": [
    "Verif.IntText.C61_parseInt_range",
    "Verif.IntText.C61_parseUint_range"
   ],
   "note": ""
  },
  {
   "property": "C62",
   "status": "partial",
   "theorems": [
    "Verif.IntText.C62_parsers_disagree",
    "Verif.IntText.C62_prefixed_agree_partial"
   ],
   "note": "False in general (\"10\" is 10 or 16): negation proved; agreement proved for text with the 0x prefix"
  },
  {
   "property": "C63",
   "status": "proved",
   "theorems": [
    "Verif.Rlp.C63_nil_only_from_marker"
   ],
   "note": ""
  },
  {
   "property": "C64",
   "status": "proved",
   "theorems": [
    "Verif.IntText.C64_parseBigInt_language"
   ],
   "note": ""
  },
  {
   "property": "C65",
   "status": "partial",
   "theorems": [
    "Verif.Mbt.C65_java_soundness_partial",
    "Verif.Mbt.C65_negative_count_forgery",
    "Verif.Mbt.C65_zero_count_forgery"
   ],
   "note": "Sound when the leaf counts are positive and do not overflow; false otherwise (forgeries)."
  },
  {
   "property": "C66",
   "status": "partial",
   "theorems": [
    "Verif.SolProof.C66_solidity_soundness_partial",
    "Verif.SolProof.C66_zero_count_forgery"
   ],
   "note": "Sound when the leaf counts are positive; with a zero count a foreign message is accepted (forgery)."
  },
  {
   "property": "C67",
   "status": "proved",
   "theorems": [
    "Verif.Mta.C67_get_node"
   ],
   "note": "For every history of additions, queries, partially failing flushes and crashes with recovery in which no two different node values are written under one hash key. "
  },
  {
   "property": "C68",
   "status": "proved",
   "theorems": [
    "Verif.Mta.C68_verify_len_sound"
   ],
   "note": "For every history of additions, queries, partially failing flushes and crashes with recovery in which no two different node values are written under one hash key. "
  },
  {
   "property": "C69",
   "status": "proved",
   "theorems": [
    "Verif.Mta.C69_data_stored"
   ],
   "note": "Under the no-collision condition on the written keys (LogOk)."
  },
  {
   "property": "C70",
   "status": "proved",
   "theorems": [
    "Verif.SolRoutes.C70_tables",
    "Verif.SolRoutes.C70_service_fixed"
   ],
   "note": "Solidity BMC, histories of calls by arbitrary senders."
  },
  {
   "property": "C71",
   "status": "partial",
   "theorems": [
    "Verif.JavaBmc.C71_java_network_numbers_partial",
    "Verif.JavaBmc.C71_java_network_unique",
    "Verif.JavaBmc.Demo.C71_java_rebound_witness"
   ],
   "note": "Proved for the messages since the network was last bound; false over the whole history when a network is bound again (C71_java_rebound_witness)."
  },
  {
   "property": "C72",
   "status": "partial",
   "theorems": [
    "Verif.JavaBmc.C72_java_codes_partial",
    "Verif.JavaBmc.C72_java_codes_witness",
    "Verif.JavaBmc.C72_java_drop",
    "Verif.JavaBmc.C72_java_drop_accepts",
    "Verif.JavaBmc.C72_java_own"
   ],
   "note": "False for services that revert with code 11 or 6 (witness); everything else proved."
  },
  {
   "property": "C73",
   "status": "partial",
   "theorems": [
    "Verif.JavaBtpBlock.C73_java_range",
    "Verif.JavaBtpBlock.C73_java_block",
    "Verif.JavaBtpBlock.C73_java_chain",
    "Verif.JavaBtpBlock.C73_java_offset_stuck",
    "Verif.JavaBtpBlock.C73_java_first_number_stuck",
    "Verif.SolBtpBlock.C73_solidity_range",
    "Verif.SolBtpBlock.C73_solidity_block",
    "Verif.SolBtpBlock.C73_solidity_chain",
    "Verif.SolBtpBlock.C73_solidity_absent_validator"
   ],
   "note": "EVM verifier: proved for every offset, first block and number of networks, with a place filler for absent validators; an empty signature before the quorum is refused. ICON verifier: proved for offset 0, first block at message 0, at most two networks. False otherwise: with an offset no honest next block is accepted, after a first block starting later nothing is accepted; a second proof in the call of the update is refused."
  },
  {
   "property": "C74",
   "status": "partial",
   "theorems": [
    "Verif.JavaBtpBlock.C74_java_handover",
    "Verif.JavaBtpBlock.C74_java_context_invariant",
    "Verif.SolBtpBlock.C74_solidity_flag_partial",
    "Verif.SolBtpBlock.C74_solidity_any_validators"
   ],
   "note": "ICON verifier: full. EVM verifier: validators change only with the flag, but the new ones are not compared with the signed hash: in every accepted update with the flag they can be replaced by any list."
  },
  {
   "property": "C75",
   "status": "proved",
   "theorems": [
    "Verif.JavaBtpBlock.C75_java_decision_commits",
    "Verif.SolBtpBlock.C75_solidity_decision_commits"
   ],
   "note": "For sections that are not 64 bytes long (a section of 64 bytes can pass for a tree node); EVM side for network names shorter than 2^32 bytes other than the single byte 0x80."
  },
  {
   "property": "C76",
   "status": "proved",
   "theorems": [
    "Verif.XCall.C76_atomic",
    "Verif.XCall.C76_success",
    "Verif.XCall.C76_integrity",
    "Verif.XCall.C76_once"
   ],
   "note": "Message centers as in C43, C44, C50: each message delivered at most once or given back, not both; network names without slash; fewer than 2^255 calls per service."
  },
  {
   "property": "C77",
   "status": "proved",
   "theorems": [
    "Verif.XCall.C77_conservation",
    "Verif.XCall.C77_send_fees",
    "Verif.XCall.C77_send_succeeds"
   ],
   "note": ""
  },
  {
   "property": "C78",
   "status": "proved",
   "theorems": [
    "Verif.XCall.C78_admin_only",
    "Verif.XCall.C78_center_only",
    "Verif.XCall.C78_service"
   ],
   "note": ""
  },
  {
   "property": "C79",
   "status": "proved",
   "theorems": [
    "Verif.XCall.C79_executable",
    "Verif.XCall.C79_rollback_possible"
   ],
   "note": "Given that the message center takes the response; requests with proper sender address and number below 2^255."
  },
  {
   "property": "C80",
   "status": "proved",
   "theorems": [
    "Verif.Link.C80_items_flow"
   ],
   "note": "Interleaving at whole method calls."
  },
  {
   "property": "C81",
   "status": "partial",
   "theorems": [
    "Verif.Link.C81_two_updates_fail",
    "Verif.Link.C81_two_updates_panic",
    "Verif.Link.C81_build_two_fails",
    "Verif.Receiver.C81_btp2_two_pending",
    "Verif.Receiver.C81_btp2_cut_panics"
   ],
   "note": "False: two pending updates, or a block in parts, crash the relay. One pending block that fits is C84."
  },
  {
   "property": "C82",
   "status": "partial",
   "theorems": [
    "Verif.Link.C82_size_partial",
    "Verif.Receiver.C82_btp2_ignores_limit"
   ],
   "note": "Holds for receivers that keep to the limit they are given and a margin that does not lower the limit; the btp2 receiver exceeds it whenever it cuts a block."
  },
  {
   "property": "C83",
   "status": "partial",
   "theorems": [
    "Verif.Link.C83_getHeader_spins",
    "Verif.Link.C83_getHeader_partial",
    "Verif.Link.C83_proofLoop_spins",
    "Verif.Link.C83_checkStatus_spins",
    "Verif.Receiver.C83_btp2_big_update_spins"
   ],
   "note": "False: conditions under which each loop runs for ever, for every fuel."
  },
  {
   "property": "C84",
   "status": "partial",
   "theorems": [
    "Verif.Receiver.C84_btp2_delivers_partial",
    "Verif.Receiver.C84_btp2_messages_partial"
   ],
   "note": "Proved for blocks that come one at a time and fit into one message; otherwise false (C81)."
  },
  {
   "property": "C85",
   "status": "partial",
   "theorems": [
    "Verif.Sender.C85_failed_status_crashes",
    "Verif.Sender.C85_status_partial"
   ],
   "note": "False: a nil status is sent and dereferenced."
  },
  {
   "property": "C86",
   "status": "partial",
   "theorems": [
    "Verif.Sender.C86_reverted_is_reported_partial",
    "Verif.Sender.C86_other_failure_silent",
    "Verif.Sender.C86_query_failure_looks_like_success",
    "Verif.Sender.C86_no_failure_object_panics",
    "Verif.Sender.C86_reports_are_true",
    "Verif.Sender.C86_evm_code_reported_partial",
    "Verif.Sender.C86_evm_no_code",
    "Verif.Sender.C86_evm_other_reason_silent",
    "Verif.Sender.C86_evm_silent_example",
    "Verif.Sender.C86_evm_negative_is_success",
    "Verif.Sender.C86_evm_replay_panics",
    "Verif.Sender.C86_evm_waits"
   ],
   "note": "Reverts with code (ICON: failure 32..99; EVM: \"<number>:<text>\") are reported exactly; other failures are silent."
  },
  {
   "property": "C87",
   "status": "partial",
   "theorems": [
    "Verif.Wallet.C87_uncompressed",
    "Verif.Wallet.C87_same_key",
    "Verif.Wallet.C87_lengths",
    "Verif.Wallet.C87_not_a_point"
   ],
   "note": "Both forms agree; only the length is checked."
  },
  {
   "property": "C88",
   "status": "partial",
   "theorems": [
    "Verif.Wallet.C88_roundtrip_partial",
    "Verif.Wallet.C88_uncompressed_recipient",
    "Verif.Wallet.C88_evm_no_secret"
   ],
   "note": "Proved for ICON wallets and compressed keys. With an uncompressed recipient key the message is unreadable; between EVM wallets the key depends on no secret."
  },
  {
   "property": "C89",
   "status": "partial",
   "theorems": [
    "Verif.Wallet.C89_src_secret_ignored",
    "Verif.Wallet.C89_partial",
    "Verif.Wallet.C89_generated_is_icon"
   ],
   "note": "False for the source side: an unreadable secret file means the empty password."
  },
  {
   "property": "C90",
   "status": "partial",
   "theorems": [
    "Verif.Monitor.C90_ethbr_partial",
    "Verif.Monitor.C90_ethbr_subscription_partial",
    "Verif.Monitor.C90_ethbr_bad_log_panics",
    "Verif.Monitor.C90_btp2_failed_fetch",
    "Verif.Monitor.C90_btp2_partial",
    "Verif.Monitor.C90_bridge_failed_fetch",
    "Verif.Monitor.C90_bridge_partial"
   ],
   "note": "Proved if every request succeeds. False otherwise: a failed fetch is logged and the block left out; for btp2 all later numbers are then wrong."
  },
  {
   "property": "C91",
   "status": "partial",
   "theorems": [
    "Verif.Monitor.C91_link_ends_iff",
    "Verif.Monitor.C91_nothing_stops_a_link",
    "Verif.Monitor.C91_relay_partial"
   ],
   "note": "False: after the first status query no failure ends a link. Exact characterisation of what would."
  },
  {
   "property": "C92",
   "status": "partial",
   "theorems": [
    "Verif.Monitor.C92_btp2_inside_block_stuck",
    "Verif.Monitor.C92_btp2_boundary_partial",
    "Verif.Monitor.C92_bridge"
   ],
   "note": "False for btp2 inside a block: the link is stuck. Proved at block boundaries and for the bridge."
  },
  {
   "property": "C93",
   "status": "partial",
   "theorems": [
    "Verif.JavaMta.C93_structure",
    "Verif.JavaMta.C93_sound",
    "Verif.JavaMta.C93_newer_height",
    "Verif.JavaMta.C93_height_not_bound",
    "Verif.JavaMta.C93_position_partial",
    "Verif.JavaMta.C93_relay_accepted",
    "Verif.JavaMta.C93_newer_accepted",
    "Verif.JavaMta.C93_only_current"
   ],
   "note": "The hash was added (or two given lists collide). False for the height: a hash is also accepted at other heights; the position is bound for witnesses of full length. Witnesses for older accumulators need a setting no contract makes."
  },
  {
   "property": "C94",
   "status": "partial",
   "theorems": [
    "Verif.JavaMpt.C94_unique",
    "Verif.JavaMpt.C94_extension_partial",
    "Verif.JavaMpt.C94_sound_partial",
    "Verif.JavaMpt.C94_index_partial",
    "Verif.JavaMpt.C94_complete",
    "Verif.JavaMpt.C94_longer_path_accepted",
    "Verif.JavaMpt.C94_empty_value_accepted",
    "Verif.JavaMpt.C94_embedded_crash",
    "Verif.JavaMpt.C94_absent_partial"
   ],
   "note": "Proved for tries whose keys are prefix free (as RLP indices are). False in general: a key is proved by a longer one and by an empty branch value; nodes embedded in their parent end in an exception."
  },
  {
   "property": "C95",
   "status": "proved",
   "theorems": [
    "Verif.JavaIconBmv.C95_votes",
    "Verif.JavaIconBmv.C95_overlap",
    "Verif.JavaIconBmv.C95_history",
    "Verif.JavaIconBmv.C95_next_iff",
    "Verif.JavaIconBmv.C95_fork"
   ],
   "note": "The hash is a parameter: a fork without double signing gives a collision of two given lists. The headers, validators and signatures of the chain are those shown in the calls."
  },
  {
   "property": "C96",
   "status": "partial",
   "theorems": [
    "Verif.JavaIconBmv.C96_messages",
    "Verif.JavaIconBmv.C96_single_partial",
    "Verif.JavaIconBmv.C96_lost",
    "Verif.JavaIconBmv.C96_null",
    "Verif.JavaIconBmv.C96_access",
    "Verif.JavaIconBmv.C96_receipt_partial",
    "Verif.JavaIconBmv.C96_proof_keeps",
    "Verif.JavaIconBmv.C96_events_accepted",
    "Verif.JavaIconBmv.C96_events_refused"
   ],
   "note": "False for two or more messages in a call: all are written to the first place of the array, the others stay null. The messages collected are exact; one message is returned as it is. The headers, validators and signatures of the chain are those shown in the calls."
  },
  {
   "property": "C97",
   "status": "proved",
   "theorems": [
    "Verif.Ncs.C97_locked_is_pending",
    "Verif.Ncs.C97_coins_accounted",
    "Verif.Ncs.C97_tokens_accounted",
    "Verif.Ncs.C97_native_transfer",
    "Verif.Ncs.C97_reclaim_tokens"
   ],
   "note": "From a fresh deployment; the token contract is modelled with it, ids of coins are taken as injective."
  },
  {
   "property": "C98",
   "status": "proved",
   "theorems": [
    "Verif.Ncs.C98_coins_cover_claims",
    "Verif.Ncs.C98_tokens_backed_by_coins",
    "Verif.Ncs.C98_reclaim_coins",
    "Verif.Ncs.C98_request_is_paid"
   ],
   "note": "Two chains, message centers that deliver each packet once (C41) in any order and answer a failed request by an error; requests may also fail on the way, where an error goes back. Answers that fail on the way: see C174."
  },
  {
   "property": "C99",
   "status": "partial",
   "theorems": [
    "Verif.Ncs.C99_one_packet_per_transfer",
    "Verif.Ncs.C99_paid_is_settled",
    "Verif.Ncs.C99_paid_is_settled_partial",
    "Verif.Ncs.C99_accepted_pays",
    "Verif.Ncs.C99_all_settled_when_delivered",
    "Verif.Ncs.C99_twice_loses"
   ],
   "note": "False if a request names the native coin of the other chain twice: only the last amount is paid (witness). Proved if no request names a coin twice, and for all other coins. Requests may fail on the way; answers that fail on the way: see C174."
  },
  {
   "property": "C100",
   "status": "partial",
   "theorems": [
    "Verif.Ncs.C100_only_center_answers_partial",
    "Verif.Ncs.C100_answer_from_any_network",
    "Verif.Ncs.C100_foreign_answer_refunds"
   ],
   "note": "False: the network of an answer is not looked at (witness). Only the message center can answer."
  },
  {
   "property": "C101",
   "status": "partial",
   "theorems": [
    "Verif.Ncs.C101_answer_carried_out",
    "Verif.Ncs.C101_error_refunds",
    "Verif.Ncs.C101_unknown_reply_settles_nothing",
    "Verif.Ncs.C101_unknown_reply_locks",
    "Verif.Ncs.C101_fees_never_leave"
   ],
   "note": "False for replies of unknown type, which leave the coins locked, and for fees: no call takes them out."
  },
  {
   "property": "C102",
   "status": "partial",
   "theorems": [
    "Verif.TokenBsh.C102_held_partial",
    "Verif.TokenBsh.C102_amounts_partial",
    "Verif.TokenBsh.C102_locked_partial",
    "Verif.TokenBsh.C102_anyone_sets_balance",
    "Verif.TokenBsh.C102_negative_accepted",
    "Verif.TokenBsh.C102_stranger_takes_all",
    "Verif.TokenBsh.C102_negative_takes_all"
   ],
   "note": "False: setBalance may be called by anyone, and transfers of negative amounts are accepted; each lets a stranger take the deposits of others (witnesses). The equation holds without outside calls of setBalance; the bounds if in addition amounts are positive and fees at most the whole; the equation for locked amounts also needs that no BTP errors come."
  },
  {
   "property": "C103",
   "status": "partial",
   "theorems": [
    "Verif.TokenBsh.C103_answer",
    "Verif.TokenBsh.C103_error_refused",
    "Verif.TokenBsh.C103_error_partial",
    "Verif.TokenBsh.C103_any_network",
    "Verif.TokenBsh.C103_error_keeps_locked"
   ],
   "note": "Answers do it exactly. False for BTP errors: refused if the receiver is not an address of this chain, and the fee stays locked otherwise. The network an answer comes from is not looked at."
  },
  {
   "property": "C104",
   "status": "partial",
   "theorems": [
    "Verif.TokenBsh.C104_gather",
    "Verif.TokenBsh.C104_error_refused",
    "Verif.TokenBsh.C104_first_asset_alone",
    "Verif.TokenBsh.C104_fees_lost_or_doubled"
   ],
   "note": "Holds for answers to the number of the request sent. False for BTP errors (always refused), for answers to the other numbers kept (fees booked twice), and for the receiver, which pays the first asset alone."
  },
  {
   "property": "C105",
   "status": "partial",
   "theorems": [
    "Verif.TokenBsh.C105_only_requests_pay"
   ],
   "note": "False: proved that no call but a request from another network takes tokens out."
  },
  {
   "property": "C106",
   "status": "partial",
   "theorems": [
    "Verif.TokenBsh.C106_deployer",
    "Verif.TokenBsh.C106_strangers",
    "Verif.TokenBsh.C106_change",
    "Verif.TokenBsh.C106_count_wrong"
   ],
   "note": "False for the count of owners and for removing the deployer, who stays an owner."
  },
  {
   "property": "C107",
   "status": "partial",
   "theorems": [
    "Verif.FeeAgg.C107_locked_is_promised",
    "Verif.FeeAgg.C107_held_partial",
    "Verif.FeeAgg.C107_claim_pays_partial",
    "Verif.FeeAgg.C107_empty_deposits_oversell",
    "Verif.FeeAgg.C107_two_names_oversell"
   ],
   "note": "False: empty deposits list a depositor several times, and a token registered under two names is sold twice (witnesses). Proved for histories where each asset has one name and deposits are not empty."
  },
  {
   "property": "C108",
   "status": "partial",
   "theorems": [
    "Verif.FeeAgg.C108_coins",
    "Verif.FeeAgg.C108_withdrawal_once",
    "Verif.FeeAgg.C108_refunds_take_deposits",
    "Verif.FeeAgg.C108_no_refund_without_auction",
    "Verif.FeeAgg.C108_deposits_there_partial",
    "Verif.FeeAgg.C108_refund_from_deposit"
   ],
   "note": "False in every history with a refund: all deposits go to the fund, so refunds are paid from the deposits of other auctions or not at all."
  },
  {
   "property": "C109",
   "status": "partial",
   "theorems": [
    "Verif.FeeAgg.C109_price",
    "Verif.FeeAgg.C109_ended_partial",
    "Verif.FeeAgg.C107_empty_deposits_oversell",
    "Verif.FeeAgg.C109_discount"
   ],
   "note": "The amounts of a single share hold for all values; that each depositor is credited once needs deposits that are not empty."
  },
  {
   "property": "C110",
   "status": "partial",
   "theorems": [
    "Verif.FeeAgg.C110_ends_partial",
    "Verif.FeeAgg.C110_stuck_without_tokens",
    "Verif.FeeAgg.C110_empty_auction_stuck",
    "Verif.FeeAgg.C110_over_not_ended",
    "Verif.FeeAgg.C110_empty_auction_blocks"
   ],
   "note": "False: no call ends an auction until new tokens come in or an earlier buyer claims, and an auction with an empty deposit alone may divide by zero."
  },
  {
   "property": "C111",
   "status": "partial",
   "theorems": [
    "Verif.FeeAgg.C111_deposit",
    "Verif.FeeAgg.C111_end_partial",
    "Verif.FeeAgg.C111_over_at_once",
    "Verif.FeeAgg.C111_set_duration"
   ],
   "note": "The end overflows for long durations, and negative durations are accepted (witnesses)."
  },
  {
   "property": "C112",
   "status": "partial",
   "theorems": [
    "Verif.PyDb.C112_map_partial",
    "Verif.PyDb.C112_comma_refused",
    "Verif.PyDb.C112_remove_of_added",
    "Verif.PyDb.C112_single_short_key"
   ],
   "note": "False: a key is not removed by the instance that added it, and a single key of one character is lost for the next instance (both for all values). Proved for all histories without these two."
  },
  {
   "property": "C113",
   "status": "partial",
   "theorems": [
    "Verif.PyDb.C113_every_second_stays",
    "Verif.PyDb.C113_added_all_stay",
    "Verif.PyDb.C113_one_key_partial"
   ],
   "note": "False: the list changes while it is walked through, so every second key stays; an instance that added the keys removes none. Proved for dictionaries of at most one key."
  },
  {
   "property": "C114",
   "status": "proved",
   "theorems": [
    "Verif.PyDb.C114_last_value",
    "Verif.PyDb.C114_unset",
    "Verif.PyDb.C114_remove_all"
   ],
   "note": ""
  },
  {
   "property": "C115",
   "status": "partial",
   "theorems": [
    "Verif.PyRlp.C115_bytes_partial",
    "Verif.PyRlp.C115_list_partial",
    "Verif.PyRlp.C115_int",
    "Verif.PyRlp.C115_roundtrip_partial",
    "Verif.PyRlp.C115_long_unreadable",
    "Verif.PyRlp.C115_reads_as_relay",
    "Verif.PyRlp.C115_not_canonical",
    "Verif.PyRlp.C115_missing_fields"
   ],
   "note": "False for values of 65536 bytes and more (the bytes of the length are inserted in a wrong order; proved unreadable for lengths of three bytes). Proved for shorter ones."
  },
  {
   "property": "C116",
   "status": "partial",
   "theorems": [
    "Verif.PyBase64.C116_roundtrip",
    "Verif.PyBase64.C116_url_roundtrip",
    "Verif.PyBase64.C116_unpadded",
    "Verif.PyBase64.C116_not_canonical",
    "Verif.PyBase64.C116_decode_trailing"
   ],
   "note": "Reading back is proved for all byte strings. False: several texts stand for the same bytes."
  },
  {
   "property": "C117",
   "status": "partial",
   "theorems": [
    "Verif.PyAddr.C117_net",
    "Verif.PyAddr.C117_text_injective",
    "Verif.PyAddr.C117_compose_partial",
    "Verif.PyAddr.C117_java_partial",
    "Verif.PyAddr.C117_cuts",
    "Verif.PyAddr.C117_replace",
    "Verif.PyAddr.C117_text_back",
    "Verif.PyAddr.C117_valid"
   ],
   "note": "False for accounts with a slash, which are cut at it. Proved for all others."
  },
  {
   "property": "C118",
   "status": "partial",
   "theorems": [
    "Verif.PyMta.C118_as_java",
    "Verif.PyMta.C118_structure",
    "Verif.PyMta.C118_only_current",
    "Verif.PyMta.C118_sound_partial",
    "Verif.PyMta.C118_accepts_as_java",
    "Verif.PyMta.C118_relay_accepted",
    "Verif.PyMta.C118_height_not_bound",
    "Verif.PyMta.C118_stored",
    "Verif.PyMta.C118_cache"
   ],
   "note": "The stated height is bound only modulo the size of the tree of the witness (proved: any height is accepted with an empty witness for the newest of an odd number of blocks). The rest is proved."
  },
  {
   "property": "C119",
   "status": "partial",
   "theorems": [
    "Verif.PyMpt.C119_unique",
    "Verif.PyMpt.C119_extension_partial",
    "Verif.PyMpt.C119_sound_partial",
    "Verif.PyMpt.C119_index_partial",
    "Verif.PyMpt.C119_complete_partial",
    "Verif.PyMpt.C119_embedded_extension_refused",
    "Verif.PyMpt.C119_branch_value_encoded",
    "Verif.PyMpt.C119_longer_path_accepted",
    "Verif.PyMpt.C119_embedded_followed"
   ],
   "note": "False: a leaf whose path is longer than the key is accepted, extensions embedded in a branch are refused and the value of a branch is returned encoded. Proved for lists under prefix-free (RLP) keys and for tries without values in branches and without embedded extensions."
  },
  {
   "property": "C120",
   "status": "partial",
   "theorems": [
    "Verif.PyBmv.C120_votes",
    "Verif.PyBmv.C120_overlap",
    "Verif.PyBmv.C120_history",
    "Verif.PyBmv.C120_fork",
    "Verif.PyBmv.C120_next_iff",
    "Verif.PyBmv.C120_height_codes",
    "Verif.PyBmv.C120_proof_codes",
    "Verif.PyBmv.C120_accepts_partial"
   ],
   "note": "Safety is proved for all histories on the bytes. Acceptance of the next block from its bytes is proved for messages below 65536 bytes (see C115). The headers, validators and signatures of the chain are those shown in the calls."
  },
  {
   "property": "C121",
   "status": "partial",
   "theorems": [
    "Verif.PyBmv.C121_messages",
    "Verif.PyBmv.C121_consecutive",
    "Verif.PyBmv.C121_messages_iff",
    "Verif.PyBmv.C121_foreign_refused",
    "Verif.PyBmv.C121_access",
    "Verif.PyBmv.C121_receipt_partial",
    "Verif.PyBmv.C121_event_partial",
    "Verif.PyBmv.C121_unique",
    "Verif.PyBmv.C121_event_read"
   ],
   "note": "The link from the proved node lists to the tries of the block assumes RLP keys and a bound on sizes (C119). A proved message for another chain with another number makes the call fail. The headers, validators and signatures of the chain are those shown in the calls."
  },
  {
   "property": "C122",
   "status": "partial",
   "theorems": [
    "Verif.PyBmc.C122_sent",
    "Verif.PyBmc.C122_sent_once",
    "Verif.PyBmc.C122_taken_partial",
    "Verif.PyBmc.C122_genuine",
    "Verif.PyBmc.C122_exactly_once_partial",
    "Verif.PyBmc.C122_reentrant_twice",
    "Verif.PyBmc.C122_right"
   ],
   "note": "Sending is proved for all histories. Taking is false if a service relays again for the same link while one of its messages is handled (proved with a witness: handled twice and the next one lost); proved for all histories without such calls. Genuine content needs verifiers that return only what was sent (C121)."
  },
  {
   "property": "C123",
   "status": "partial",
   "theorems": [
    "Verif.PyBmc.C123_open",
    "Verif.PyBmc.C123_owner",
    "Verif.PyBmc.C123_allowed",
    "Verif.PyBmc.C123_origin",
    "Verif.PyBmc.C123_nobody",
    "Verif.PyBmc.C123_granted",
    "Verif.PyBmc.C123_emptied_stays",
    "Verif.PyBmc.C123_removed_never_back",
    "Verif.PyBmc.C123_twice",
    "Verif.PyBmc.C123_revoked_partial",
    "Verif.PyBmc.C123_relayers_unchecked"
   ],
   "note": "False in part: nothing is checked while access control is off, the permissions of the origin count when the sender has none, an account whose last permission was removed can never get one again, relayers and relays are not guarded. Each proved; the rest proved for all states."
  },
  {
   "property": "C124",
   "status": "partial",
   "theorems": [
    "Verif.PyBmc.C124_link_has_verifier",
    "Verif.PyBmc.C124_remove_verifier",
    "Verif.PyBmc.C124_relays_survive",
    "Verif.PyBmc.C124_two_links",
    "Verif.PyBmc.C124_route_without_link"
   ],
   "note": "The verifier part is proved for all histories. False: two links to one network, routes over links that do not exist, relays that survive the removal of their link (witnesses proved)."
  },
  {
   "property": "C125",
   "status": "partial",
   "theorems": [
    "Verif.PyBmc.C125_only_relays",
    "Verif.PyBmc.C125_someone",
    "Verif.PyBmc.C125_turns",
    "Verif.PyBmc.C125_everyone",
    "Verif.PyBmc.C125_remove_fails",
    "Verif.PyBmc.C125_anyone",
    "Verif.PyBmc.C125_credited"
   ],
   "note": "Proved: only a relay of the link relays, the index stays in range, the turn advances with the height and everyone gets a turn. False: removeRelay always fails, and anyone can become a relay of a link without terms (proved)."
  },
  {
   "property": "C126",
   "status": "partial",
   "theorems": [
    "Verif.PyBmc.C126_poison",
    "Verif.PyBmc.C126_call_fails",
    "Verif.PyBmc.C126_never_passed_partial",
    "Verif.PyBmc.C126_anyone_can",
    "Verif.PyBmc.C126_handled_partial"
   ],
   "note": "False: messages with unreadable events, unknown events, unreadable acknowledgements, null numbers or destinations and unreadable errors make every relay call with them fail, so the number never passes them; whoever may call sendMessage at the other end can send one. All other messages are handled if the search for a route meets only addresses (C126_handled_partial)."
  },
  {
   "property": "C127",
   "status": "partial",
   "theorems": [
    "Verif.PyBmc.C127_resolves_to_link",
    "Verif.PyBmc.C127_forwarded",
    "Verif.PyBmc.C127_unreadable",
    "Verif.PyBmc.C127_answers",
    "Verif.PyBmc.C127_unreachable_code",
    "Verif.PyBmc.C127_direct",
    "Verif.PyBmc.C127_sent_to_next",
    "Verif.PyBmc.C127_event_from_anywhere",
    "Verif.PyBmc.C127_error_becomes_request",
    "Verif.PyBmc.C127_bad_reachable",
    "Verif.PyBmc.C127_foreign_event",
    "Verif.PyBmc.C127_bad_event",
    "Verif.PyBmc.C127_misdelivered"
   ],
   "note": "Forwarding, answers and direct links are proved. False: sendMessage writes the next hop as destination, events are taken from any network for any link, a text that is no address in an event makes the search fail, an error that cannot be passed on comes back as a request (each proved)."
  },
  {
   "property": "C128",
   "status": "partial",
   "theorems": [
    "Verif.PyToken.C128_ledger",
    "Verif.PyToken.C128_locked",
    "Verif.PyToken.C128_locked_nonneg",
    "Verif.PyToken.C128_usable_partial",
    "Verif.PyToken.C128_negative"
   ],
   "note": "Ledger and locked balance are proved for all histories. The usable balance can become negative by a received request with a negative value (witness C128_negative); proved non-negative when no such request is received."
  },
  {
   "property": "C129",
   "status": "partial",
   "theorems": [
    "Verif.PyToken.C129_numbers",
    "Verif.PyToken.C129_ends_once",
    "Verif.PyToken.C129_pending",
    "Verif.PyToken.C129_answered",
    "Verif.PyToken.C129_error",
    "Verif.PyToken.C129_any_network",
    "Verif.PyToken.C129_error_for_answer",
    "Verif.PyToken.C129_code_false",
    "Verif.PyToken.C129_error_codes"
   ],
   "note": "Numbers and single ends are proved. False: an answer is taken from any network; an error for an answer the service gave is taken for its own transfer with the same number; a code false is compared as an object and gives the value back (witnesses)."
  },
  {
   "property": "C130",
   "status": "partial",
   "theorems": [
    "Verif.PyToken.C130_unlist",
    "Verif.PyToken.C130_names",
    "Verif.PyToken.C130_contract_fixed",
    "Verif.PyToken.C130_deposit",
    "Verif.PyToken.C130_stranger",
    "Verif.PyToken.C130_never_again",
    "Verif.PyToken.C130_unregister_stops_deposits_only",
    "Verif.PyToken.C130_same_contract"
   ],
   "note": "Proved except: unregistering stops deposits only (transfers, reclaims and received transfers of the token go on), a name can never be registered again, and one contract may have two names (each proved)."
  },
  {
   "property": "C131",
   "status": "partial",
   "theorems": [
    "Verif.PyToken.C131_request",
    "Verif.PyToken.C131_only_center",
    "Verif.PyToken.C131_raises",
    "Verif.PyToken.C131_blocks",
    "Verif.PyToken.C131_unknown",
    "Verif.PyToken.C131_bounce",
    "Verif.PyToken.C131_replay"
   ],
   "note": "Proved: readable requests are credited and answered 0, or answered -1; only the message center is listened to. False: texts that are no JSON, no type, or requests with a missing or unreadable field raise and so block the link (C131_blocks, composed with the message center); messages of unknown type are answered with such messages for ever; a request given twice is credited twice."
  },
  {
   "property": "C132",
   "status": "proved",
   "theorems": [
    "Verif.PyToken.C132_received_once",
    "Verif.PyToken.C132_not_both",
    "Verif.PyToken.C132_settled_received",
    "Verif.PyToken.C132_resolved",
    "Verif.PyToken.C132_conserved",
    "Verif.PyToken.C132_backed",
    "Verif.PyToken.C132_values",
    "Verif.PyToken.C132_usable"
   ],
   "note": "For two services of this code and a network that delivers each packet once and unchanged. A packet a service cannot read is not delivered (C131_blocks). A third network or another program behind the message center is not covered: see C128, C129, C131 for what it can do."
  },
  {
   "property": "C133",
   "status": "partial",
   "theorems": [
    "Verif.SolRelay.C133_roundtrip",
    "Verif.SolRelay.C133_init",
    "Verif.SolRelay.C133_typed",
    "Verif.SolRelay.C133_history",
    "Verif.SolRelay.C133_in_order_partial",
    "Verif.SolRelay.C133_chain",
    "Verif.SolRelay.C133_go_relay",
    "Verif.SolRelay.C133_go_proof",
    "Verif.SolRelay.C133_go_update",
    "Verif.SolRelay.C133_memory_witness"
   ],
   "note": "Round trip, sizes, refinement and relaying of honest chains are proved for all bytes and memory contents. The order theorem keeps the conditions of C50 (accepted proofs are placed, last section on the chain). A message cut off inside an item is not always refused: what it means depends on memory behind it (C133_memory_witness)."
  },
  {
   "property": "C134",
   "status": "proved",
   "theorems": [
    "Verif.IntText.C134_go_uint",
    "Verif.IntText.C134_go_int",
    "Verif.IntText.C134_parseInt",
    "Verif.IntText.C134_parseUint",
    "Verif.IntText.C134_meaning_witness"
   ],
   "note": "Complete characterisation. The witness shows what the rule means: 010 is eight, 019 is twenty-five."
  },
  {
   "property": "C135",
   "status": "partial",
   "theorems": [
    "Verif.EndToEnd.C135_codec",
    "Verif.EndToEnd.C135_counted",
    "Verif.EndToEnd.C135_released",
    "Verif.EndToEnd.C135_given",
    "Verif.EndToEnd.C135_end_to_end_partial",
    "Verif.EndToEnd.C135_progress",
    "Verif.EndToEnd.C135_relays_only",
    "Verif.EndToEnd.C135_seen_inj",
    "Verif.EndToEnd.C135_ascii"
   ],
   "note": "Under the limits of C50 (proofs placed as the relay places them, the last section of the verifier is one of the chain) and without services that re-enter the message center for the link while it handles a message of it. Or a hash collision or a preimage of zero shows. That the chain of blocks carries the messages given to the BTP network is what ICON itself does, outside of this repository, and is a hypothesis."
  },
  {
   "property": "C136",
   "status": "proved",
   "theorems": [
    "Verif.SolText.C136_parse",
    "Verif.SolText.C136_roundtrip",
    "Verif.SolText.C136_ascii",
    "Verif.SolText.C136_checksum",
    "Verif.SolText.C136_never_valid",
    "Verif.SolText.C136_never_valid_witness"
   ],
   "note": "isChecksumValid is used nowhere; that it never holds is what the code does."
  },
  {
   "property": "C137",
   "status": "partial",
   "theorems": [
    "Verif.SolText.C137_split",
    "Verif.SolText.C137_btp_address",
    "Verif.SolText.C137_btp_sound",
    "Verif.SolText.C137_hex",
    "Verif.SolText.C137_hex_injective",
    "Verif.SolText.C137_compare",
    "Verif.SolText.C137_lower",
    "Verif.SolText.C137_indexOf"
   ],
   "note": "False of the code in part: split loses a last part of one character and, after two delimiters at the end, the last part; C137_split says exactly what it gives. splitBTPAddress ignores the scheme (C137_btp_sound). compareTo: or a hash collision."
  },
  {
   "property": "C138",
   "status": "partial",
   "theorems": [
    "Verif.SolText.C138_parse_reverts",
    "Verif.SolText.C138_toString",
    "Verif.SolText.C138_toString_reverts",
    "Verif.XCall.C138_error_enables_partial",
    "Verif.XCall.C138_error_lost_witness"
   ],
   "note": "False of the code in part: parseInt reverts for every text; toString reverts from 10^32 on, so that the Solidity call service refuses errors with such codes and does not enable the rollback."
  },
  {
   "property": "C139",
   "status": "partial",
   "theorems": [
    "Verif.JavaMsgs.C139_bmc_message",
    "Verif.JavaMsgs.C139_init",
    "Verif.JavaMsgs.C139_link",
    "Verif.JavaMsgs.C139_response",
    "Verif.JavaMsgs.C139_claim",
    "Verif.JavaMsgs.C139_call_message",
    "Verif.JavaMsgs.C139_call_request",
    "Verif.JavaMsgs.C139_call_response",
    "Verif.JavaMsgs.C139_number_limit",
    "Verif.JavaMsgs.C139_evm_bmc_message_partial",
    "Verif.JavaMsgs.C139_evm_init_partial",
    "Verif.JavaMsgs.C139_evm_link_partial",
    "Verif.JavaMsgs.C139_evm_response_partial",
    "Verif.JavaMsgs.C139_evm_call_message_partial",
    "Verif.JavaMsgs.C139_evm_call_request_partial",
    "Verif.JavaMsgs.C139_evm_call_response_partial"
   ],
   "note": "From ICON to the EVM: all contents with unsigned numbers below 2^255 (refused from there on) and signed ones of 31 bytes. From the EVM to ICON: with the exceptions of C59 (negations proved there). ICON's side is written by the runtime's ObjectWriter, whose form is taken as given."
  },
  {
   "property": "C140",
   "status": "partial",
   "theorems": [
    "Verif.SolBmc.C140_evm_item",
    "Verif.SolBmc.C140_evm_item_fails",
    "Verif.SolBmc.C140_evm_handled_partial",
    "Verif.SolBmc.C140_evm_sent",
    "Verif.SolBmc.C140_evm_never_passed",
    "Verif.SolBmc.C140_evm_poison",
    "Verif.SolBmc.C140_evm_drop",
    "Verif.SolBmc.C140_evm_drop_refused",
    "Verif.EndToEnd.C140_evm_unreadable",
    "Verif.EndToEnd.C140_evm_call_reverts",
    "Verif.EndToEnd.C140_evm_huge",
    "Verif.EndToEnd.C140_evm_writable",
    "Verif.JavaBmc.C140_icon_handled",
    "Verif.JavaBmc.C140_icon_sent"
   ],
   "note": "Proved for ICON (readable messages) and for the EVM except for three kinds of messages: requests for an answer without a request number (fail if they are for this network and not handled), network number -128 (cannot be read), numbers beyond 2^127 to be passed on (cannot be written). For these the negation is proved: the relay call reverts, and the link does not get past them unless an owner drops the message. Neither message center sends the first kind if it receives none."
  },
  {
   "property": "C141",
   "status": "partial",
   "theorems": [
    "Verif.DApp.C141_rollbacks_partial",
    "Verif.DApp.C141_once_partial",
    "Verif.DApp.C141_after_failure_partial",
    "Verif.DApp.C141_never_fails_partial",
    "Verif.DApp.C141_possible_partial",
    "Verif.DApp.C141_messages_partial",
    "Verif.DApp.C141_calls_partial",
    "Verif.DApp.C141_sent_partial",
    "Verif.DApp.C141_other_networks",
    "Verif.DApp.C141_checks",
    "Verif.DApp.C141_abi",
    "Verif.DApp.C141_evm_ok",
    "Verif.DApp.Demo.C141_forged_witness",
    "Verif.DApp.Demo.C141_forged_empty_witness",
    "Verif.DApp.Demo.C141_kept_witness",
    "Verif.DApp.C141_abi_reads"
   ],
   "note": "Proved for histories in which no call delivered claims to come from the call service of this chain; it is enough that the message center never names this network as the origin (C141_other_networks), and C172 proves the condition of networks. Without it the negation is proved: the call service passes on whatever network it is given, so a message can pose as a rollback; the true rollback then fails. Also: data of successful calls is never deleted. On ICON the form of the data (runtime ObjectWriter/ObjectReader) is assumed to be readable; on the EVM this is proved."
  },
  {
   "property": "C142",
   "status": "partial",
   "theorems": [
    "Verif.EvmToIcon.C142_codec_partial",
    "Verif.EvmToIcon.C142_ascii",
    "Verif.EvmToIcon.C142_one_at_a_time",
    "Verif.EvmToIcon.C142_two_refused",
    "Verif.EvmToIcon.C142_end_to_end_partial",
    "Verif.EvmToIcon.C142_in_order",
    "Verif.EvmToIcon.C142_verified",
    "Verif.EvmToIcon.C142_progress",
    "Verif.EvmToIcon.C142_height_raised",
    "Verif.EvmToIcon.C142_height_blocks",
    "Verif.EvmToIcon.C142_destination_ignored",
    "Verif.EvmToIcon.Demo.C142_other_link_witness"
   ],
   "note": "Safety is proved for messages the encoders write correctly (C59); ICON's runtime reader is a parameter assumed to read what the runtime's writer writes. The rest is false of the code: relay messages with two or more due events are refused, one relay call with a false height ends the link, and events of other links are taken for events of this link."
  },
  {
   "property": "C143",
   "status": "partial",
   "theorems": [
    "Verif.IconToIcon.C143_relays_only",
    "Verif.IconToIcon.C143_released",
    "Verif.IconToIcon.C143_end_to_end_partial",
    "Verif.IconToIcon.C143_progress"
   ],
   "note": "Proved for verifiers set up from the first header of the network with offset 0 (other set-ups are stuck: C73), with the proofs it accepts having positive leaf counts and the last section taken being one of the chain (C47, C49; signatures are C75). The runtime reader is a parameter assumed to read what the runtime writer writes. Relay calls for the link from inside a service are refused in the model (see C41)."
  },
  {
   "property": "C144",
   "status": "partial",
   "theorems": [
    "Verif.IconToIcon.C144_java_apart",
    "Verif.IconToIcon.C144_java_ahead",
    "Verif.IconToIcon.C144_java_drop_blocks",
    "Verif.DropBlock.C144_sol_apart",
    "Verif.DropBlock.C144_sol_ahead",
    "Verif.DropBlock.C144_sol_drop_blocks",
    "Verif.DropBlock.C144_bridge_partial"
   ],
   "note": "False of links with block verifiers on both platforms: the verifier keeps its own number, which dropMessage does not raise, and refuses every relay call from then on, until the link is removed. The partial theorem is for the bridge verifier, which takes the number from the message center."
  },
  {
   "property": "C145",
   "status": "partial",
   "theorems": [
    "Verif.PyCpf.C145_money",
    "Verif.PyCpf.C145_cap",
    "Verif.PyCpf.C145_cap_always_partial",
    "Verif.PyCpf.C145_accepts",
    "Verif.PyCpf.C145_books",
    "Verif.PyCpf.C145_permission",
    "Verif.PyCpf.C145_page",
    "Verif.PyCpf.C145_pages",
    "Verif.PyCpf.C145_lowered",
    "Verif.PyCpf.C145_negative_budget"
   ],
   "note": "False in three places: a lowered maximum is enforced only at the next payment; the recorded budget gets negative if the CPS treasury returns more than was sent; with a negative maximum (the owner may set one) every payment is refused, and then no auction with bids ends."
  },
  {
   "property": "C146",
   "status": "proved",
   "theorems": [
    "Verif.PyMulti.C146_supply",
    "Verif.PyMulti.C146_balances",
    "Verif.PyMulti.C146_once",
    "Verif.PyMulti.C146_permission",
    "Verif.PyMulti.C146_owner_only",
    "Verif.PyMulti.C146_batch",
    "Verif.PyMulti.Irc2.C146_irc2",
    "Verif.PyMulti.Irc2.C146_irc2_permission",
    "Verif.PyMulti.C146_accepts",
    "Verif.PyMulti.Irc2.C146_irc2_moves",
    "Verif.PyMulti.Irc2.C146_irc2_installs"
   ],
   "note": ""
  },
  {
   "property": "C147",
   "status": "partial",
   "theorems": [
    "Verif.PyMulti.C147_int_partial",
    "Verif.PyMulti.C147_int_wrong",
    "Verif.PyMulti.C147_list_partial",
    "Verif.PyMulti.C147_log_partial",
    "Verif.PyMulti.C147_log_wrong",
    "Verif.PyMulti.C147_same_bytes"
   ],
   "note": "True for ids and values of batches from 0 to 2^53 - 1. False above: int_to_bytes divides with floats, so a batch transfer of one token of 18 decimals and 200 units is told as 256 units more; different values, and ids -1 and 255, have the same bytes."
  },
  {
   "property": "C148",
   "status": "partial",
   "theorems": [
    "Verif.PyCpf.Ref.C148_last",
    "Verif.PyCpf.Ref.C148_usd",
    "Verif.PyCpf.Ref.C148_known",
    "Verif.PyCpf.Ref.C148_bulk",
    "Verif.PyCpf.Ref.C148_value",
    "Verif.PyCpf.Ref.C148_pair",
    "Verif.PyCpf.Ref.C148_older_wins"
   ],
   "note": "False of the time: an entry with an earlier resolve time replaces a later one."
  },
  {
   "property": "C149",
   "status": "partial",
   "theorems": [
    "Verif.HexJson.C149_roundtrip",
    "Verif.HexJson.C149_range",
    "Verif.HexJson.C149_number",
    "Verif.HexJson.C149_null_zero",
    "Verif.HexJson.C149_exponent",
    "Verif.HexJson.C149_string",
    "Verif.HexJson.C149_rlp",
    "Verif.HexJson.C149_raw_bytes",
    "Verif.HexJson.C149_bytes",
    "Verif.HexJson.C149_bytes_roundtrip"
   ],
   "note": "False in three places: a JSON number with an exponent is misread (1e5 is 485); null and the empty string are zero, so an absent number can not be told from zero; the string \"10\" is sixteen for HexInt and ten for HexInt64."
  },
  {
   "property": "C150",
   "status": "partial",
   "theorems": [
    "Verif.JavaUtil.C150_tokenize",
    "Verif.JavaUtil.C150_tokenize_text",
    "Verif.JavaUtil.C150_validators",
    "Verif.JavaUtil.C150_validators_iff",
    "Verif.JavaUtil.C150_empty",
    "Verif.JavaUtil.C150_dead",
    "Verif.JavaUtil.C150_name",
    "Verif.JavaUtil.C150_empty_name",
    "Verif.JavaUtil.C150_hex_partial",
    "Verif.JavaUtil.C150_hex_roundtrip",
    "Verif.JavaUtil.C150_hex_any",
    "Verif.JavaUtil.C150_hex_prefix",
    "Verif.JavaUtil.C150_camel",
    "Verif.JavaUtil.C150_sort",
    "Verif.JavaUtil.C150_arrays",
    "Verif.JavaUtil.C150_upper"
   ],
   "note": "False in three places: hexToBytes accepts any text of even length (0x11, as in the tests, is ff 11); the empty name is accepted; a verifier can be deployed with no validators or with duplicates, and then never accepts a block. toLowerCamelCase does not lower the first letter."
  },
  {
   "property": "C151",
   "status": "partial",
   "theorems": [
    "Verif.SolMem.C151_memcpy",
    "Verif.SolMem.C151_flatten",
    "Verif.SolMem.C151_concat",
    "Verif.SolMem.C151_splitSignature",
    "Verif.SolMem.C151_address_partial",
    "Verif.SolMem.C151_address_false",
    "Verif.SolMem.C151_itemLength",
    "Verif.SolMem.C151_payloadOffset",
    "Verif.SolMem.C151_tests",
    "Verif.SolMem.C151_toUint",
    "Verif.SolMem.C151_toBytes",
    "Verif.SolMem.C151_toRlpBytes",
    "Verif.SolMem.C151_toList",
    "Verif.SolMem.C151_toList_none",
    "Verif.SolMem.C151_item"
   ],
   "note": "Proved for copying, joining and reading. False for encodeAddress: it takes the upper 20 bytes of the length from the memory behind the free memory pointer, and concat can leave bytes there (witness). No contract of the bridge calls encodeAddress; the test library does."
  },
  {
   "property": "C152",
   "status": "proved",
   "theorems": [
    "Verif.SolProof.C152_push",
    "Verif.SolProof.C152_pop",
    "Verif.SolProof.C152_calculate"
   ],
   "note": ""
  },
  {
   "property": "C153",
   "status": "partial",
   "theorems": [
    "Verif.JavaObj.C153_bmc_partial",
    "Verif.JavaObj.C153_nativecoin",
    "Verif.JavaObj.C153_xcall",
    "Verif.JavaObj.C153_bsh",
    "Verif.JavaObj.C153_btpblock",
    "Verif.JavaObj.C153_icon_partial",
    "Verif.JavaObj.C153_stable",
    "Verif.JavaObj.C153_parsed_stable",
    "Verif.JavaObj.C153_own_stable",
    "Verif.JavaObj.C153_unstable",
    "Verif.JavaObj.C153_injective",
    "Verif.JavaObj.C153_header_injective",
    "Verif.JavaObj.C153_receipt_false",
    "Verif.JavaObj.C153_result_null",
    "Verif.JavaObj.C153_reencode_false"
   ],
   "note": "Proved for all classes, with two conditions: BTP addresses must survive their text form (all that come from the parser do; one with \"/\" in the network does not), and a receipt must have a list of event logs (one without is written and cannot be read: witness). The hashed header is a re-encoding of what was read: for a block whose result has a fifth field the bytes differ (witness). The runtime's RLPn is an assumption (lossless items)."
  },
  {
   "property": "C154",
   "status": "partial",
   "theorems": [
    "Verif.RlpObj.C154_constructors",
    "Verif.RlpObj.C154_calls",
    "Verif.RlpObj.C154_same_partial",
    "Verif.RlpObj.C154_hex",
    "Verif.RlpObj.C154_by_value_false",
    "Verif.RlpObj.C154_map",
    "Verif.RlpObj.C154_map_bytes",
    "Verif.RlpObj.C154_map_last",
    "Verif.RlpObj.C154_map_refused",
    "Verif.RlpObj.C154_listOf",
    "Verif.RlpObj.C154_skip_raw",
    "Verif.RlpObj.C154_skip_only",
    "Verif.RlpObj.C154_skip",
    "Verif.RlpObj.C154_skip_false",
    "Verif.RlpObj.C154_steps",
    "Verif.RlpObj.C154_any_calls",
    "Verif.RlpObj.C154_late_false"
   ],
   "note": "Proved, with the exceptions shown by witnesses: custom methods are used for addressable values only, so a HexInt passed by value, in a map or in a struct passed by value is written without its number; a length of 2^63 is skipped as if it were zero; a value given to an encoder whose parent has gone on is lost. Interfaces and msgpack are not modelled."
  },
  {
   "property": "C155",
   "status": "partial",
   "theorems": [
    "Verif.RelayConfig.place_clean",
    "Verif.RelayConfig.place_abs",
    "Verif.RelayConfig.place_dir",
    "Verif.RelayConfig.C155_round",
    "Verif.RelayConfig.C155_start",
    "Verif.RelayConfig.C155_start_file",
    "Verif.RelayConfig.C155_save_names",
    "Verif.RelayConfig.C155_save_partial",
    "Verif.RelayConfig.C155_save_moved",
    "Verif.RelayConfig.C155_save_false",
    "Verif.RelayConfig.C155_save_empty",
    "Verif.RelayConfig.C155_keystore_false",
    "Verif.RelayConfig.C155_links",
    "Verif.RelayConfig.C155_links_total",
    "Verif.RelayConfig.C155_options_false"
   ],
   "note": "Proved, except for: save resolves names that are relative to the configuration file against the working directory (kept exactly if the two are the same directory); an empty log file or base directory becomes the working directory; no key store is ever written by save; the step limit of the side written to is ignored, that of the other side is used."
  },
  {
   "property": "C156",
   "status": "proved",
   "theorems": [
    "Verif.SolNet.net_step",
    "Verif.SolNet.net_reach",
    "Verif.SolNet.C156_balance",
    "Verif.SolNet.C156_credited_backed",
    "Verif.SolNet.C156_solvent",
    "Verif.SolNet.C156_claim_covered",
    "Verif.SolNet.C156_paid_covered",
    "Verif.SolNet.Demo.networks",
    "Verif.SolNet.Demo.story_reach",
    "Verif.SolNet.Demo.C156_drop_false",
    "Verif.SolNet.Demo.C156_reentrant_false"
   ],
   "note": "Under the conditions of the statement, which are needed: Demo.C156_drop_false and Demo.C156_reentrant_false make rewards without coins. With message centers of ICON in the network: C163."
  },
  {
   "property": "C157",
   "status": "proved",
   "theorems": [
    "Verif.SolNet.link_step",
    "Verif.SolNet.link_reach",
    "Verif.SolNet.C157_in_order",
    "Verif.SolNet.C157_solvent",
    "Verif.SolNet.C157_claim_covered",
    "Verif.SolNet.Demo.lstory_reach"
   ],
   "note": "Conditions as for C156 (services make no relay calls while they handle a message, truthful drops, no cleared links); that verifiers release only the next messages emitted is C40, C41, C50, C135, C142."
  },
  {
   "property": "C158",
   "status": "proved",
   "theorems": [
    "Verif.SolNet.C158_once",
    "Verif.SolNet.C158_done",
    "Verif.SolNet.C158_genuine",
    "Verif.SolNet.C158_numbers",
    "Verif.SolNet.C158_accounted",
    "Verif.SolNet.C158_never",
    "Verif.SolNet.link_treach",
    "Verif.SolNet.C158_link_once",
    "Verif.SolNet.C158_link_genuine",
    "Verif.SolNet.C158_link_done",
    "Verif.SolNet.Demo.asked_reach",
    "Verif.SolNet.Demo.failed_reach",
    "Verif.SolNet.Demo.C158_reuse_false"
   ],
   "note": "Conditions: services make no relay calls while they handle a message (C41), owners who drop a message tell its contents truly, numbers of links are not cleared. C158_reuse_false: of two requests with one number the first is forgotten and never answered."
  },
  {
   "property": "C159",
   "status": "proved",
   "theorems": [
    "Verif.XNet.C159_network",
    "Verif.XNet.C159_solvent",
    "Verif.XNet.C159_calls",
    "Verif.XNet.C159_atomic",
    "Verif.XNet.C159_success",
    "Verif.XNet.C159_integrity",
    "Verif.XNet.C159_once",
    "Verif.XNet.C159_settled",
    "Verif.XNet.C159_accounted",
    "Verif.XNet.C159_answerable",
    "Verif.XNet.jreach_all",
    "Verif.XNet.jreach_treach",
    "Verif.XNet.exec_answers",
    "Verif.XNet.Demo.good2",
    "Verif.XNet.Demo.good9"
   ],
   "note": "Conditions: services make no relay calls while they handle a message (C41), the management knows only the call service under its name, services encode so that others can read (C59, C139), less than 2^255 calls, owners who drop a message tell its contents truly, chain names have no slash. C159_answerable also needs a route back and callers with non-empty addresses."
  },
  {
   "property": "C160",
   "status": "proved",
   "theorems": [
    "Verif.MixNet.C160_once",
    "Verif.MixNet.C160_done",
    "Verif.MixNet.C160_genuine",
    "Verif.MixNet.C160_numbers",
    "Verif.MixNet.C160_accounted",
    "Verif.MixNet.C160_never",
    "Verif.MixNet.reach_inv",
    "Verif.MixNet.Step.moves",
    "Verif.MixNet.tr_emb",
    "Verif.MixNet.Demo.both_reach",
    "Verif.MixNet.Demo.fallen_reach",
    "Verif.MixNet.Demo.C160_fallen_false"
   ],
   "note": "Everything stated is proved. What is false of the code: that every request is answered or answerable. When an ICON chain refuses the error message (sendBTPMessage), the message center gives the request up and its sender never gets an answer (C160_fallen_false); C160_accounted names this case. Conditions: services make no relay calls while they handle a message (C41), owners who drop a message tell its source, service and numbers truly, numbers of EVM links are not cleared."
  },
  {
   "property": "C161",
   "status": "proved",
   "theorems": [
    "Verif.XMix.C161_network",
    "Verif.XMix.C161_calls",
    "Verif.XMix.C161_atomic",
    "Verif.XMix.C161_success",
    "Verif.XMix.C161_integrity",
    "Verif.XMix.C161_once",
    "Verif.XMix.C161_settled",
    "Verif.XMix.C161_accounted",
    "Verif.XMix.C161_answerable_evm",
    "Verif.XMix.C161_answerable_icon",
    "Verif.XMix.reach_xinv",
    "Verif.XMix.Step.moves",
    "Verif.XMix.Demo.V_good",
    "Verif.XMix.Demo.W1_good",
    "Verif.XMix.Demo.L1_good",
    "Verif.XMix.Demo.C161_lost_false",
    "Verif.XMix.irun_due",
    "Verif.XMix.Demo.C161_answerable_owner_false"
   ],
   "note": "Everything stated is proved. What is false of the code: that every call with a rollback is answered or answerable. When an ICON chain refuses the error message (sendBTPMessage), the message center gives the request up and the caller never gets an answer (C161_lost_false); C161_accounted names this case. Conditions: services and contracts called make no relay calls while they run (C41), owners who drop a message tell its source, service and numbers truly and register no other contract as xcall, fewer than 2^255 calls per service, messages between call services are read as they were written (C59, C139); for the answers of ICON, the contract called does not use the owners' methods of the message center: an owner can take the service away in the middle of the call (C161_answerable_owner_false)."
  },
  {
   "property": "C162",
   "status": "proved",
   "theorems": [
    "Verif.XMix.C162_network",
    "Verif.XMix.C162_in_order",
    "Verif.XMix.C162_numbers",
    "Verif.XMix.C162_atomic",
    "Verif.XMix.C162_success",
    "Verif.XMix.C162_integrity",
    "Verif.XMix.C162_once",
    "Verif.XMix.C162_settled",
    "Verif.XMix.C162_accounted",
    "Verif.XMix.C162_drained",
    "Verif.XMix.lreach_inv",
    "Verif.XMix.LInv.step",
    "Verif.XMix.Wires.step",
    "Verif.XMix.LDemo.W2_good"
   ],
   "note": "Conditions: those of C161; verifiers release what the other chain emitted (C164 puts the verifiers in); a link of ICON is not added again after it was removed and numbers of EVM links are not cleared (the numbers start again at 0 then); an owner who drops a message names the one that is next."
  },
  {
   "property": "C163",
   "status": "partial",
   "theorems": [
    "Verif.MixNet.C163_balance",
    "Verif.MixNet.C163_credited_backed",
    "Verif.MixNet.C163_covered",
    "Verif.MixNet.C163_solvent_partial",
    "Verif.MixNet.C163_claim_covered_partial",
    "Verif.MixNet.Money.C163_unrouted_false",
    "Verif.MixNet.Money.C163_oneway_false",
    "Verif.MixNet.mnet_reach",
    "Verif.MixNet.mnet_step",
    "Verif.MixNet.ledger_books",
    "Verif.MixNet.quiet_loc",
    "Verif.MixNet.relay_loc",
    "Verif.MixNet.drop_loc",
    "Verif.MixNet.MReach.reach",
    "Verif.MixNet.Money.networks",
    "Verif.MixNet.Money.story_reach"
   ],
   "note": "Solvency without conditions is false of the code: ICON credits a claim before answering, so a claim from a network it has no route to is credited and refunded (C163_unrouted_false); ICON collects the rest of the fee of a failed message that wants no answer twice (C163_oneway_false). Conditions: owners drop only messages under way and tell their fees truly; services make no relay calls while handling a message (C156_reentrant_false); one encoding of messages to the message centers on all chains."
  },
  {
   "property": "C164",
   "status": "partial",
   "theorems": [
    "Verif.XMix.C164_released",
    "Verif.XMix.C164_network",
    "Verif.XMix.C164_numbers",
    "Verif.XMix.C164_in_order",
    "Verif.XMix.C164_atomic",
    "Verif.XMix.C164_success",
    "Verif.XMix.C164_integrity",
    "Verif.XMix.C164_once",
    "Verif.XMix.C164_settled",
    "Verif.XMix.C164_bridge_evm",
    "Verif.XMix.C164_bridge_icon",
    "Verif.XMix.evm_reads",
    "Verif.XMix.icon_reads",
    "Verif.XMix.blockRun_out",
    "Verif.XMix.jblockRun_out",
    "Verif.XMix.shown_numbered",
    "Verif.XMix.given_numbered",
    "Verif.XMix.lreach_line",
    "Verif.XMix.vreach_lreach",
    "Verif.XMix.VDemo.R_ok",
    "Verif.XMix.VDemo.V3_good"
   ],
   "note": "Conditions: those of C162 but for the verifiers; texts of messages are ASCII and numbers and lengths such that the encoders write them right (C59) and the EVM can hold them; ICON reads what its runtime wrote (a parameter); BTP block verifiers: the last section taken is one of the chain of blocks, proofs placed as the relay places them (C50) or with positive counts (C49), no hash collision or preimage of zero; those of ICON start at the first section of the network. The events a relay brings to the bridge verifier of ICON are for this chain: it does not look (C142_destination_ignored), so without that condition the property is false. That a relay that brings events tells the truth is what the bridge rests on."
  },
  {
   "property": "C165",
   "status": "proved",
   "theorems": [
    "Verif.JavaBmc.Ann.C165_told",
    "Verif.JavaBmc.Ann.C165_learnt",
    "Verif.JavaBmc.Ann.C165_own",
    "Verif.JavaBmc.Ann.C165_network",
    "Verif.JavaBmc.Ann.C165_next",
    "Verif.JavaBmc.Ann.NReach.ninv",
    "Verif.JavaBmc.Ann.Demo.setup",
    "Verif.JavaBmc.Ann.Demo.reach"
   ],
   "note": "Conditions: bodies are read as they were written (C139: shorter than 2^63 bytes); contracts called while a message or claim is handled are no owners and make no relay calls; for one message center alone: announcements that come in are from the chain of the link and for this one (in the network this is proved); for the network: verifiers release what the other chain emitted from the number received on (C40, C41, C50, C135, C142, C143), a link is not added again under the same address, nothing was given up by the owner on the links in question. All chains are ICON."
  },
  {
   "property": "C166",
   "status": "partial",
   "theorems": [
    "Verif.SolRoutes.C166_consistent_partial",
    "Verif.SolRoutes.C166_removable_partial",
    "Verif.SolRoutes.C166_handled_partial",
    "Verif.SolRoutes.C166_reach_partial",
    "Verif.SolRoutes.C166_next_partial",
    "Verif.SolRoutes.NReach.ninv",
    "Verif.SolRoutes.Net.sparse",
    "Verif.SolRoutes.Net.C166_triangle_witness"
   ],
   "note": "False in general: of three chains all linked to each other, when one link is removed the announcement of it makes the third chain lose its way over a link it still has (C166_triangle_witness). The partial theorems hold for all networks in which links are made along a relation without triangles, a link is not added again once removed, no link is added for a network with a manual route and no manual route over a link; announcements are read in order, each once (C01, C02, C40, C41). All chains are EVM."
  },
  {
   "property": "C167",
   "status": "partial",
   "theorems": [
    "Verif.PyEnd.C167_honest",
    "Verif.PyEnd.C167_verified",
    "Verif.PyEnd.C167_exactly_once_partial"
   ],
   "note": "Partial: no service relays for the same link while a message of it is handled (else false, C122_reentrant_twice), the link was added once on the other side, indices below 65536 bytes. That events of the chain are those its message center made is an assumption (Source), as is that its tries are those whose roots stand in the blocks (World.Of). The collision cases name the lists in which the collision is."
  },
  {
   "property": "C168",
   "status": "partial",
   "theorems": [
    "Verif.JavaEnd.C168_honest",
    "Verif.JavaEnd.C168_events",
    "Verif.JavaEnd.C168_verified",
    "Verif.JavaEnd.C168_one",
    "Verif.JavaEnd.C168_exactly_once_partial",
    "Verif.JavaEnd.C168_in_order_partial"
   ],
   "note": "Partial: relay messages come decoded and serializations are parameters (one form each); that the events of the chain are those its message center made since the link was added (Source) and that its tries are those whose roots stand in the blocks (World.Of) are assumptions. Order needs that all links have verifiers that release one message at a time. A relay call with two messages is refused (C96_null)."
  },
  {
   "property": "C169",
   "status": "partial",
   "theorems": [
    "Verif.PyTokenEnd.C169_refines_partial",
    "Verif.PyTokenEnd.C169_received_once_partial",
    "Verif.PyTokenEnd.C169_not_both_partial",
    "Verif.PyTokenEnd.C169_resolved_partial",
    "Verif.PyTokenEnd.C169_backed_partial",
    "Verif.PyTokenEnd.C169_sound",
    "Verif.PyTokenEnd.C169_own_network"
   ],
   "note": "Partial: of every state on the way it is assumed that the link and the registration of the service stay, messages are shorter than 65536 bytes, nobody else uses the name of the service over the link, and the service sends over the link only to the other network (Wired, Quiet, Sends). Without the last it is false: C169_own_network, where the events of addLink make each message center list itself as reachable over the link, so that a transfer to the own network is credited on the other chain. Calls made while a message for another service is handled are no relay calls (C122)."
  },
  {
   "property": "C170",
   "status": "partial",
   "theorems": [
    "Verif.RelayLog.C170_levels",
    "Verif.RelayLog.C170_parse",
    "Verif.RelayLog.C170_where",
    "Verif.RelayLog.C170_module_level",
    "Verif.RelayLog.C170_forwarded",
    "Verif.RelayLog.C170_forwarder_partial",
    "Verif.RelayLog.C170_ipv6",
    "Verif.RelayLog.C170_fields",
    "Verif.RelayLog.C170_package",
    "Verif.RelayLog.C170_one_line_partial",
    "Verif.RelayLog.C170_forged",
    "Verif.RelayLog.C170_module_panics"
   ],
   "note": "Levels, console, file, forwarded entries, fields and packages are proved. False in two places: an IPv6 address of a fluentd forwarder gives a host cut at its first colon and port 0 (C170_ipv6), and a message with a line break makes several lines, so that one entry can pose as two (C170_forged). A module field that is not a string makes the logger panic. logrus, url.Parse and strings.ToLower are parameters or described in the module."
  },
  {
   "property": "C171",
   "status": "partial",
   "theorems": [
    "Verif.CliOptions.C171_read_partial",
    "Verif.CliOptions.C171_text",
    "Verif.CliOptions.C171_bracket_lost",
    "Verif.CliOptions.C171_raw",
    "Verif.CliOptions.C171_literals",
    "Verif.CliOptions.C171_no_value"
   ],
   "note": "Proved for options that need no quotes if the first key begins and the last value ends with no bracket. False otherwise: closing brackets at the end of the last value are lost, whatever the option (C171_bracket_lost). A leading zero means octal (C171_literals); for maps of raw JSON numbers are left out and unreadable text is an empty map (C171_raw). encoding/csv, ParseFloat and the JSON reader are parameters."
  },
  {
   "property": "C172",
   "status": "partial",
   "theorems": [
    "Verif.DApp.C172_foreign",
    "Verif.DApp.C172_rollback",
    "Verif.DApp.C172_messages",
    "Verif.DApp.C172_pair",
    "Verif.DApp.C172_reported",
    "Verif.DApp.C172_drained",
    "Verif.DApp.NetDemo.onA",
    "Verif.DApp.NetDemo.onB",
    "Verif.DApp.NetDemo.U3_good",
    "Verif.DApp.NetDemo.onA2",
    "Verif.DApp.NetDemo.onB2"
   ],
   "note": "Proved under the conditions of C164 (network, verifiers, neat messages), and those of C141 but for the origin of messages, which is proved here (C172_foreign): rollback data can be read back, names have no slash. The call service does not call its own sendCallMessage (it has no such code). Messages given up (C160, C161) are the one way in which a call is never settled."
  },
  {
   "property": "C173",
   "status": "partial",
   "theorems": [
    "Verif.WsMonitor.C173_notifications",
    "Verif.WsMonitor.C173_failure_ends",
    "Verif.WsMonitor.C173_table_partial",
    "Verif.WsMonitor.C173_no_silent_end_partial",
    "Verif.WsMonitor.C173_close_stops_partial",
    "Verif.WsMonitor.C173_event_starts_with_error",
    "Verif.WsMonitor.C173_errors_are_real",
    "Verif.WsMonitor.C173_callback",
    "Verif.WsMonitor.C173_btp2",
    "Verif.WsMonitor.C173_endpoint",
    "Verif.WsMonitor.C173_endpoint_host",
    "Verif.WsMonitor.C173_reused_address_false",
    "Verif.WsMonitor.C173_late_close_false",
    "Verif.WsMonitor.C173_closing_reported"
   ],
   "note": "The table, the absence of silent ends and the effect of closing are proved for histories in which no connection gets the local address of a monitor that has not returned and nobody closes a monitor that has returned; without these the negation is proved: entries are removed by local address, so the end of one monitor can silently end another. Also proved: MonitorEvent reports an error at every start, a deliberate close is reported as a failure if the read was blocked, and the endpoint is changed at the first \"http\" anywhere. The look at the table is taken as atomic (the code does not lock there); the websocket library is a parameter."
  },
  {
   "property": "C174",
   "status": "partial",
   "theorems": [
    "Verif.Ncs.C174_requests_partial",
    "Verif.Ncs.C174_failed_request_refunds",
    "Verif.Ncs.C174_lost_answer_strands",
    "Verif.Ncs.C174_lost_answer_refunds_another",
    "Verif.Ncs.C174_lost_answer_false",
    "Verif.Ncs.C174_tokens_without_coins_false",
    "Verif.Ncs.C174_lost_error_false",
    "Verif.MixNet.C174_center_answers",
    "Verif.MixNet.C174_center_gives_up",
    "Verif.MixNet.C174_not_handed_over"
   ],
   "note": "Proved for requests: their failure on the way is now an event of the histories of C98 and C99. False for answers, because the service sends them with a positive number: the error for a lost answer goes to the chain that answered and refunds, in every such state, the transfer which that chain has under the number, although its own request is still on the way; the transfer that was answered stays locked. Witness: 20000 coins are refunded and 19980 tokens for them are minted on the other chain. The two parts, message center and service, are joined by the model of the network between them (`bounced`), not by one program."
  },
  {
   "property": "C175",
   "status": "partial",
   "theorems": [
    "Verif.HttpStream.C175_seen_partial",
    "Verif.HttpStream.C175_in_order_partial",
    "Verif.HttpStream.C175_end_after_all",
    "Verif.HttpStream.C175_returned_is_final",
    "Verif.HttpStream.C175_ends",
    "Verif.HttpStream.C175_ends_only",
    "Verif.HttpStream.C175_goroutine_stays",
    "Verif.HttpStream.C175_comes_to_an_end",
    "Verif.HttpStream.C175_overwritten_false",
    "Verif.HttpStream.C175_leftover_false",
    "Verif.HttpStream.C175_address",
    "Verif.HttpStream.C175_base",
    "Verif.HttpStream.C175_two_schemes_false",
    "Verif.HttpStream.C175_no_base_false",
    "Verif.HttpStream.C175_params"
   ],
   "note": "The order is proved if no document is decoded while a callback runs and decoding replaces the whole value; in general the callback sees the value after its document or after the next one. False without: the goroutine decodes the next document into the value the callback is looking at (witness), and fields a document lacks keep the values of earlier ones (witness). A goroutine is left behind after every call that was cancelled or ended by the callback (proved for all histories). Decoding and the callback are one step each; torn reads are not modelled. The JSON decoder is a parameter; the HTTP library is not modelled."
  },
  {
   "property": "C176",
   "status": "partial",
   "theorems": [
    "Verif.NcsEnd.C176_refines_partial",
    "Verif.NcsEnd.C176_backed_partial",
    "Verif.NcsEnd.C176_one_message_partial",
    "Verif.NcsEnd.C176_paid_partial",
    "Verif.NcsEnd.C176_addressed"
   ],
   "note": "Proved by a simulation: every step of the two chains is a step of the model of C98 and C99 or none. Conditions: each message of the service is handed to the other message center once (C41, C42, C162), the service stays registered when messages arrive, answers do not fail on the way and errors find the link back open (else false, see C174), the services send only to each other, each reads what the other wrote (C153)."
  },
  {
   "property": "C177",
   "status": "proved",
   "theorems": [
    "Verif.Ncs.C177_fees_change",
    "Verif.Ncs.C177_fees_stay",
    "Verif.Ncs.C177_no_fee_without_success",
    "Verif.Ncs.C177_coins_stay"
   ],
   "note": "A finding more than a guarantee: no call pays the fees to anyone."
  },
  {
   "property": "C178",
   "status": "partial",
   "theorems": [
    "Verif.JsonRpc.C178_success",
    "Verif.JsonRpc.C178_panics",
    "Verif.JsonRpc.C178_nil_error",
    "Verif.JsonRpc.C178_nil_error_kills",
    "Verif.JsonRpc.C178_errors_handed_on",
    "Verif.JsonRpc.C178_http_error",
    "Verif.JsonRpc.C178_unreadable",
    "Verif.JsonRpc.C178_lost",
    "Verif.JsonRpc.C178_value_kept",
    "Verif.JsonRpc.C178_sent",
    "Verif.JsonRpc.C178_any_id",
    "Verif.JsonRpc.C178_no_result"
   ],
   "note": "Proved as stated; partial because that a call never panics, and that an answer belongs to its request, are false of the code. JSON and the HTTP library are parameters."
  },
  {
   "property": "C179",
   "status": "partial",
   "theorems": [
    "Verif.Zip.C179_exact_partial",
    "Verif.Zip.C179_whole_partial",
    "Verif.Zip.C179_distinct",
    "Verif.Zip.C179_excluded",
    "Verif.Zip.C179_fails",
    "Verif.Zip.C179_fails_exactly_partial",
    "Verif.Zip.C179_not_a_directory",
    "Verif.Zip.C179_cut_false",
    "Verif.Zip.C179_link_false",
    "Verif.Zip.C179_link_to_directory",
    "Verif.Zip.C179_empty_lost"
   ],
   "note": "Proved for trees without symbolic links, files whole if reading does not fail. False otherwise: a file whose reading fails is in the archive cut off and the call succeeds (errors of io.Copy are dropped); the text of a link is looked up from the working directory, and its entry is marked as a link. Links that lead back upwards and the zip format are not modelled. Nothing in the repository calls the function."
  },
  {
   "property": "C180",
   "status": "partial",
   "theorems": [
    "Verif.DebugBsh.C180_icon_swapped",
    "Verif.DebugBsh.C180_icon_never",
    "Verif.DebugBsh.C180_icon_raw",
    "Verif.DebugBsh.C180_icon_notes",
    "Verif.DebugBsh.C180_evm_sends",
    "Verif.DebugBsh.C180_first_number",
    "Verif.DebugBsh.C180_numbers",
    "Verif.DebugBsh.C180_evm_answers",
    "Verif.DebugBsh.C180_for_ever",
    "Verif.DebugBsh.C180_no_method",
    "Verif.DebugBsh.C180_evm_never"
   ],
   "note": "The numbers, sending by hand on ICON, and noting on ICON are proved; the rest is false of the code and the negations are proved: arguments exchanged on ICON (C180_icon_swapped, C180_icon_never), no such method on the EVM (C180_no_method, C180_evm_never, with Keccak-256 computed in the kernel), fields of the event exchanged, and answers for ever (C180_for_ever, for centers that take and deliver everything)."
  },
  {
   "property": "C181",
   "status": "partial",
   "theorems": [
    "Verif.HttpDo.C181_success",
    "Verif.HttpDo.C181_result",
    "Verif.HttpDo.C181_kept",
    "Verif.HttpDo.C181_server_errors",
    "Verif.HttpDo.C181_sent",
    "Verif.HttpDo.C181_unreadable",
    "Verif.HttpDo.C181_left_open"
   ],
   "note": "Proved but for closing: C181_left_open says exactly when the body of an answer is left open. JSON and the HTTP library are parameters."
  }
 ]
}