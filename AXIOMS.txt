Dusk.Hash.C01_oneshot: Quot.sound, propext
Dusk.Hash.C01_perform: propext
Dusk.Hash.C01_perform_broken: propext
Dusk.Hash.C01_xxhash_bytes: Quot.sound, propext
Dusk.Hash.C02_checksum: Quot.sound, propext
Dusk.Hash.C02_compare: Quot.sound, propext
Dusk.Hash.C02_unique: Quot.sound, propext
Dusk.Hash.C03_entropy: Quot.sound, propext
Dusk.Hash.C03_success: Classical.choice, Quot.sound, propext
Dusk.Merkle.C04_newTree_terminates: Classical.choice, Quot.sound, propext
Dusk.Merkle.C04_newTree_ok_iff: Classical.choice, Quot.sound, propext
Dusk.Merkle.C04_newTree_err: Quot.sound, propext
Dusk.Merkle.C04_first_failure: propext
Dusk.Merkle.C04_single_node_diverges: Quot.sound, propext
Dusk.Merkle.C05_merkleRoot: Classical.choice, Quot.sound, propext
Dusk.Merkle.C06_newTree_verifies: Classical.choice, Quot.sound, propext
Dusk.Merkle.C06_history_verifies: Classical.choice, Quot.sound, propext
Dusk.Merkle.C07_membership: Classical.choice, Quot.sound, propext
Dusk.Merkle.C07_unhashable: Classical.choice, Quot.sound, propext
Dusk.Merkle.C08_root_binding: Classical.choice, Quot.sound, propext
Dusk.Merkle.C08_tree_binding: Classical.choice, Quot.sound, propext
Dusk.Merkle.C08_digest_length_needed: Quot.sound, propext
Dusk.Merkle.C09_rebuild: Classical.choice, Quot.sound, propext
Dusk.Merkle.C09_rebuild_idempotent: Classical.choice, Quot.sound, propext
Dusk.Merkle.C09_rebuildUsing_ok: Classical.choice, Quot.sound, propext
Dusk.Merkle.C09_rebuildUsing_fail: Classical.choice, Quot.sound, propext
Dusk.Merkle.C09_rebuild_drops_dup: Classical.choice, Quot.sound, propext
Dusk.Merkle.C10_odd_repeat_violated: Classical.choice, Quot.sound, propext
Dusk.Merkle.C10_interior_violated: Classical.choice, Quot.sound, propext
Dusk.Merkle.C10_four_two_violated: Classical.choice, Quot.sound, propext
Dusk.Merkle.C11_leaves: Classical.choice, Quot.sound, propext
Dusk.Merkle.C11_depth: Classical.choice, Quot.sound, propext
Dusk.Merkle.C12_verifyTree: Classical.choice, Quot.sound, propext
Dusk.Merkle.C12_payload_change_reported: Classical.choice, Quot.sound, propext
Dusk.Merkle.C12_stored_hashes_unread: Classical.choice, Quot.sound, propext
Dusk.Merkle.C12_verifyContent: Classical.choice, Quot.sound, propext
Dusk.Merkle.C12_verifyContent_absent: Quot.sound, propext
Dusk.Merkle.C12_merkleRoot_unread: propext
Dusk.Merkle.C12_path_hash_reported: Classical.choice, Quot.sound, propext
Dusk.Merkle.C12_sibling_payload_reported: Classical.choice, Quot.sound, propext
Dusk.Merkle.C12_other_payload_unread: Classical.choice, Quot.sound, propext
Dusk.MerkleMem.C13_no_write_full: Classical.choice, Quot.sound, propext
Dusk.MerkleMem.C13_overwrite_violated: Classical.choice, Quot.sound, propext
Dusk.MerkleMem.C13_single_overwrite_violated: Classical.choice, Quot.sound, propext
Dusk.MerkleMem.C13_wrong_root_violated: Classical.choice, Quot.sound, propext
Dusk.Mlsag.C14_prove: Classical.choice, Quot.sound, propext
Dusk.Mlsag.C14_completeness: Classical.choice, Quot.sound, propext
Dusk.Mlsag.C15_ring: Classical.choice, Quot.sound, propext
Dusk.Mlsag.C16_images: Classical.choice, Quot.sound, propext
Dusk.Mlsag.C16_link: Classical.choice, Quot.sound, propext
Dusk.Mlsag.C16_dual: Classical.choice, Quot.sound, propext
Dusk.Mlsag.C17_verify: Classical.choice, Quot.sound, propext
Dusk.Mlsag.C17_single: Classical.choice, Quot.sound, propext
Dusk.Mlsag.C17_empty: Quot.sound, propext
Dusk.Mlsag.C18_encode: Quot.sound, propext
Dusk.Mlsag.C18_encode_empty: Quot.sound, propext
Dusk.Mlsag.C18_decode: Quot.sound, propext
Dusk.Mlsag.C18_roundtrip: Quot.sound, propext
Dusk.Mlsag.C18_empty: Classical.choice, Quot.sound, propext
Dusk.Mlsag.C19_mlsag: Quot.sound, propext
Dusk.Mlsag.C19_commitments: Quot.sound, propext
Dusk.Mlsag.C19_innerproduct: Quot.sound, propext
Dusk.Mlsag.C19_rangeproof: Quot.sound, propext
Dusk.Mlsag.C19_truncated: Quot.sound, propext
Dusk.Mlsag.C20_mlsag: Quot.sound, propext
Dusk.Mlsag.C20_commitments: Quot.sound, propext
Dusk.Mlsag.C20_innerproduct: Quot.sound, propext
Dusk.Mlsag.C20_rangeproof: Quot.sound, propext
Dusk.Mlsag.C21_mlsag: Quot.sound, propext
Dusk.Mlsag.C21_commitments: Quot.sound, propext
Dusk.Mlsag.C21_innerproduct: Quot.sound, propext
Dusk.Mlsag.C21_rangeproof: Quot.sound, propext
Dusk.Mlsag.C22_equal_counts: Classical.choice, Quot.sound, propext
Dusk.Mlsag.C22_extra_violated: Classical.choice, Quot.sound, propext
Dusk.Mlsag.C22_panic_violated: Classical.choice, Quot.sound, propext
Dusk.Mlsag.C22_outcome: Classical.choice, Quot.sound, propext
Dusk.Mlsag.C23_zero: Quot.sound, propext
Dusk.Mlsag.C23_prove: Classical.choice, Quot.sound, propext
Dusk.Mlsag.C23_success: Classical.choice, Quot.sound, propext
Dusk.Mlsag.C24_violated: Classical.choice, Quot.sound, propext
Dusk.Mlsag.C24_ring_grows_violated: Classical.choice, Quot.sound, propext
Dusk.Mlsag.C25_violated: Classical.choice, Quot.sound, propext
Dusk.Mlsag.C26_panic_iff: Classical.choice, Quot.sound, propext
Dusk.Mlsag.C26_decoded: Quot.sound, propext
Dusk.Mlsag.C26_decoded_verify: Classical.choice, Quot.sound, propext
Dusk.Mlsag.C27_sub: Quot.sound, propext
Dusk.Mlsag.C27_twice: Quot.sound, propext
Dusk.Mlsag.C27_panic: Quot.sound, propext
Dusk.Mlsag.C28_order: Classical.choice, Quot.sound, propext
Dusk.Mlsag.C28_extract: Classical.choice, Quot.sound, propext
Dusk.Mlsag.C28_special_soundness: Classical.choice, Quot.sound, propext
Dusk.Blsag.C29_completeness: Classical.choice, Quot.sound, propext
Dusk.Blsag.C30_violated: Classical.choice, Quot.sound, propext
Dusk.Blsag.C30_mixins_ignored_violated: Quot.sound, propext
Dusk.Blsag.C31_violated: Classical.choice, Quot.sound, propext
Dusk.Blsag.C32_verify: Classical.choice, Quot.sound, propext
Dusk.Blsag.C32_empty: Quot.sound, propext
Dusk.Blsag.C32_short: Classical.choice, Quot.sound, propext
Dusk.Blsag.C32_group: Quot.sound, propext
Dusk.Blsag.C33_image: Classical.choice, Quot.sound, propext
Dusk.Bls.C34_unsafe: Classical.choice, Quot.sound, propext
Dusk.Bls.C34_safe: Classical.choice, Quot.sound, propext
Dusk.Bls.C35_multisig: Classical.choice, Quot.sound, propext
Dusk.Bls.C36_unsafe: Classical.choice, Quot.sound, propext
Dusk.Bls.C36_safe: Classical.choice, Quot.sound, propext
Dusk.Bls.C36_compressed: Classical.choice, Quot.sound, propext
Dusk.Bls.C36_complete: Classical.choice, Quot.sound, propext
Dusk.Bls.C36_complete_safe: Classical.choice, Quot.sound, propext
Dusk.Bls.C37_unsafe: Classical.choice, Quot.sound, propext
Dusk.Bls.C37_safe: Classical.choice, Quot.sound, propext
Dusk.Bls.C37_batch: Classical.choice, Quot.sound, propext
Dusk.Bls.C38_unsafe_violated: Classical.choice, Quot.sound, propext
Dusk.Bls.C38_safe_violated: Classical.choice, Quot.sound, propext
Dusk.Bls.C38_sign_violated: Classical.choice, Quot.sound, propext
Dusk.Bls.C39_distinct_violated: Classical.choice, Quot.sound, propext
Dusk.Bls.C39_classical_violated: Classical.choice, Quot.sound, propext
Dusk.Bls.C39_aggregate_violated: Classical.choice, Quot.sound, propext
Dusk.Bls.C40_unsafe: Classical.choice, Quot.sound, propext
Dusk.Bls.C40_safe: Classical.choice, Quot.sound, propext
Dusk.Bls.C40_compressed: Classical.choice, Quot.sound, propext
Dusk.Bls.C40_collision: Classical.choice, Quot.sound, propext
Dusk.Bls.C41_lengths: Classical.choice, Quot.sound, propext
Dusk.Bls.C41_surplus_unsafe: Classical.choice, Quot.sound, propext
Dusk.Bls.C41_surplus_compressed: Classical.choice, Quot.sound, propext
Dusk.Bls.C41_missing_unsafe: Classical.choice, Quot.sound, propext
Dusk.Bls.C41_missing_compressed: Classical.choice, Quot.sound, propext
Dusk.Bls.C41_empty: Classical.choice, Quot.sound, propext
Dusk.Bls.C42_publicKey: Classical.choice, Quot.sound, propext
Dusk.Bls.C42_apk: Classical.choice, Quot.sound, propext
Dusk.Bls.C42_signature: Classical.choice, Quot.sound, propext
Dusk.Bls.C42_unsafeSignature: Classical.choice, Quot.sound, propext
Dusk.Bls.C42_injective: Classical.choice, Quot.sound, propext
Dusk.Bls.C42_accepts_keys: Classical.choice, Quot.sound, propext
Dusk.Bls.C42_accepts_signatures: Classical.choice, Quot.sound, propext
Dusk.Bls.C42_aggregateBytes: Classical.choice, Quot.sound, propext
Dusk.Bls.C43_signature: Classical.choice, Quot.sound, propext
Dusk.Bls.C43_apk: Classical.choice, Quot.sound, propext
Dusk.Bls.C43_publicKey_violated: Classical.choice, Quot.sound, propext
Dusk.Bls.C43_text_violated: Classical.choice, Quot.sound, propext
Dusk.Bls.C44_accepts: Classical.choice, Quot.sound, propext
Dusk.Bls.C44_text: Classical.choice, Quot.sound, propext
Dusk.Bls.C44_bytes: Classical.choice, Quot.sound, propext
Dusk.Bls.C44_line_breaks: Quot.sound, propext
Dusk.Bls.C45_history: Classical.choice, Quot.sound, propext
Dusk.Bls.C45_frame: Classical.choice, Quot.sound, propext
Dusk.Bls.C45_apk_receiver: Classical.choice, Quot.sound, propext
Dusk.Bls.C45_sig_receiver: Classical.choice, Quot.sound, propext
Dusk.Bls.C45_apk_copy: Classical.choice, Quot.sound, propext
Dusk.Bls.C45_sig_copy: Classical.choice, Quot.sound, propext
Dusk.Bls.C45_sig_independent: Classical.choice, Quot.sound, propext
Dusk.Bls.C45_separate: Classical.choice, Quot.sound, propext
Dusk.Bls.C45_apk_independent: Classical.choice, Quot.sound, propext
Dusk.Bls.C45_literal_shares: Classical.choice, Quot.sound, propext
Dusk.Bls.C46_aggregateApk: Classical.choice, Quot.sound, propext
Dusk.Bls.C46_verify_nil: Classical.choice, Quot.sound, propext
Dusk.Vec.C47_add: Quot.sound, propext
Dusk.Vec.C47_sub: Quot.sound, propext
Dusk.Vec.C47_hadamard: Quot.sound, propext
Dusk.Vec.C47_innerProduct: Classical.choice, Quot.sound, propext
Dusk.Vec.C47_exp: Classical.choice, Quot.sound, propext
Dusk.Vec.C47_scalar_ops: Quot.sound, propext
Dusk.Vec.C47_scalar_ops_length: Quot.sound, propext
Dusk.Vec.C47_fromScalar: Quot.sound, propext
Dusk.Vec.C47_split: Quot.sound, propext
Dusk.Vec.C48_powers: Quot.sound, propext
Dusk.Vec.C48_sum: Classical.choice, Quot.sound, propext
Dusk.Vec.C48_zero_violated: Classical.choice, Quot.sound, propext
Dusk.Vec.C48_agree: Classical.choice, Quot.sound, propext
Dusk.C49_chain: Quot.sound, propext
Dusk.C49_split: Quot.sound, propext
Dusk.C50_open: Quot.sound, propext
Dusk.C50_homomorphic: Quot.sound, propext
Dusk.C50_binding: Classical.choice, Quot.sound, propext
Dusk.C50_blinding_unique: Classical.choice, Quot.sound, propext
Dusk.C50_hiding: Quot.sound, propext
Dusk.C51_commit: Quot.sound, propext
Dusk.C51_empty: Quot.sound, propext
Dusk.C51_seeds_distinct: Classical.choice, Quot.sound, propext
Dusk.C51_seeds_repeat_violated: Quot.sound, propext
Dusk.C51_collision_violated: Classical.choice, Quot.sound, propext
Dusk.C52_cache: Quot.sound, propext
Dusk.C52_no_domain_separation: Quot.sound, propext
Dusk.IP.C53_completeness: Classical.choice, Quot.sound, propext
Dusk.IP.C54_scalars: Classical.choice, Quot.sound, propext
Dusk.IP.C54_reverse: Classical.choice, Quot.sound, propext
Dusk.IP.C54_mismatch: Classical.choice, Quot.sound, propext
Dusk.IP.C54_overflow: Classical.choice, Quot.sound, propext
Dusk.IP.C55_lengths: Classical.choice, Quot.sound, propext
Dusk.IP.C55_not_power: Classical.choice, Quot.sound, propext
Dusk.IP.C55_empty_never: Classical.choice, Quot.sound, propext
Dusk.IP.C55_empty_panics: Classical.choice, Quot.sound, propext
Dusk.IP.C55_single: Classical.choice, Quot.sound, propext
Dusk.IP.C56_diffNextPow2: Classical.choice, Quot.sound, propext
Dusk.IP.C56_isPower2: Classical.choice, Quot.sound, propext
Dusk.IP.C57_encode: Quot.sound, propext
Dusk.IP.C57_decode: Quot.sound, propext
Dusk.IP.C57_roundtrip: Classical.choice, Quot.sound, propext
Dusk.IP.C57_truncation_violated: Classical.choice, Quot.sound, propext
Dusk.IP.C58_extraction: Classical.choice, Quot.sound, propext
Dusk.IP.C58_soundness: Classical.choice, Quot.sound, propext
Dusk.IP.C58_satisfiable: Classical.choice, Quot.sound, propext
Dusk.RP.C59_bits: Quot.sound, propext
Dusk.RP.C59_value: Classical.choice, Quot.sound, propext
Dusk.RP.C59_debug: Classical.choice, Quot.sound, propext
Dusk.RP.C59_debug_any: Classical.choice, Quot.sound, propext
Dusk.RP.C59_debug_short: Quot.sound, propext
Dusk.RP.C60_completeness: Classical.choice, Quot.sound, propext
Dusk.RP.C60_nonzero_hash: Classical.choice, Quot.sound, propext
Dusk.RP.C61_returns: Classical.choice, Quot.sound, propext
Dusk.RP.C61_out_of_range: Classical.choice, Quot.sound, propext
Dusk.RP.C61_single: Classical.choice, Quot.sound, propext
Dusk.RP.C61_few_challenges: Classical.choice, Quot.sound, propext
Dusk.RP.C62_state: Classical.choice, Quot.sound, propext
Dusk.RP.C62_violated: Classical.choice, Quot.sound, propext
Dusk.RP.C62_fresh_violated: Classical.choice, Quot.sound, propext
Dusk.RP.C63_equation: Classical.choice, Quot.sound, propext
Dusk.RP.C63_coin: Classical.choice, Quot.sound, propext
Dusk.RP.C64_violated: Classical.choice, Quot.sound, propext
Dusk.RP.C65_checks: Classical.choice, Quot.sound, propext
Dusk.RP.C65_silent_violated: Classical.choice, Quot.sound, propext
Dusk.RP.C65_debug_agrees: Classical.choice, Quot.sound, propext
Dusk.RP.C65_debug_violated: Classical.choice, Quot.sound, propext
Dusk.RP.C66_encode: Quot.sound, propext
Dusk.RP.C66_roundtrip: Classical.choice, Quot.sound, propext
Dusk.RP.C66_verdict: Classical.choice, Quot.sound, propext
Dusk.RP.C66_transmit: Classical.choice, Quot.sound, propext
Dusk.RP.C66_nil: Quot.sound, propext
Dusk.RP.C66_noPanic: Quot.sound, propext
Dusk.RP.C66_chunkFree: Quot.sound, propext
Dusk.RP.C66_short: Quot.sound, propext
Dusk.IP.C67_innerproduct: Classical.choice, Quot.sound, propext
Dusk.IP.C67_innerproduct_violated: Classical.choice, Quot.sound, propext
Dusk.IP.C67_innerproduct_panics_violated: Classical.choice, Quot.sound, propext
Dusk.IP.C67_innerproduct_outcome: Classical.choice, Quot.sound, propext
Dusk.RP.C67_equal_lengths: Quot.sound, propext
Dusk.RP.C67_different_lengths: Quot.sound, propext
Dusk.RP.C67_ip_violated: Quot.sound, propext
Dusk.RP.C67_flag_panic_violated: Quot.sound, propext
Dusk.RP.C67_flag_violated: Quot.sound, propext
Dusk.RP.C67_flag_outcome: Classical.choice, Quot.sound, propext
Dusk.RP.C68_empty: Classical.choice, Quot.sound, propext
Dusk.RP.C68_many: Classical.choice, Quot.sound, propext
Dusk.RP.C68_prove: Classical.choice, Quot.sound, propext
Dusk.RP.C68_no_panic: Classical.choice, Quot.sound, propext
Dusk.RP.C68_commitments: Classical.choice, Quot.sound, propext
Dusk.RP.C69_extraction: Classical.choice, Quot.sound, propext
Dusk.RP.C69_soundness: Classical.choice, Quot.sound, propext
Dusk.RP.C69_verify: Classical.choice, Quot.sound, propext
Dusk.RP.C69_satisfiable: Classical.choice, Quot.sound, propext
Dusk.RP.C70_pad_violated: Classical.choice, Quot.sound, propext
Dusk.RP.C70_lost_update_violated: Classical.choice, Quot.sound, propext
Dusk.RP.C70_alone: Classical.choice, Quot.sound, propext
Dusk.RP.C70_uniform: Classical.choice, Quot.sound, propext
Dusk.RP.C70_mixed_reads: Classical.choice, Quot.sound, propext
Dusk.RP.C70_violated: Classical.choice, Quot.sound, propext
Dusk.C71_commitment: Quot.sound, propext
Dusk.C71_commitments: Quot.sound, propext
Dusk.C71_mlsag: Quot.sound, propext
Dusk.C71_innerproduct_violated: Quot.sound, propext
Dusk.C71_rangeproof: Quot.sound, propext
Dusk.C72_equality: Quot.sound, propext
Dusk.C72_decoded_violated: Quot.sound, propext
Dusk.IP.C73_scalars: Classical.choice, Quot.sound, propext
Dusk.IP.C73_any_claim: Classical.choice, Quot.sound, propext
Dusk.IP.C73_binding_violated: Classical.choice, Quot.sound, propext
Dusk.IP.C74_shapes: Classical.choice, Quot.sound, propext
Dusk.IP.C74_boundary_violated: Classical.choice, Quot.sound, propext
Dusk.RP.C75_coins: Classical.choice, Quot.sound, propext
Dusk.RP.C75_uniform: Classical.choice, Quot.sound, propext
Dusk.RP.C75_adaptive: Classical.choice, Quot.sound, propext
Dusk.RP.C75_simulated: Classical.choice, Quot.sound, propext
Dusk.RP.C75_witness_indistinguishable: Classical.choice, Quot.sound, propext
Dusk.RP.C75_verify_published: Classical.choice, Quot.sound, propext
Dusk.Mlsag.C76_surplus: Classical.choice, Quot.sound, propext
Dusk.Mlsag.C76_malleable_violated: Classical.choice, Quot.sound, propext
Dusk.Mlsag.C76_wire_violated: Classical.choice, Quot.sound, propext
Dusk.Mlsag.C77_shift: Classical.choice, Quot.sound, propext
Dusk.Mlsag.C77_binding_violated: Classical.choice, Quot.sound, propext
Dusk.Mlsag.C77_skip_violated: Classical.choice, Quot.sound, propext
Dusk.Mlsag.C78_shapes_violated: Classical.choice, Quot.sound, propext
Dusk.Mlsag.C79_bijective: Classical.choice, Quot.sound, propext
Dusk.Mlsag.C80_position_violated: Classical.choice, Quot.sound, propext
Dusk.Mlsag.C80_same_second_violated: Classical.choice, Quot.sound, propext
Dusk.MlsagMem.C81_sub: Classical.choice, Quot.sound, propext
Dusk.MlsagMem.C81_distinct: Classical.choice, Quot.sound, propext
Dusk.MlsagMem.C81_caller_violated: Classical.choice, Quot.sound, propext
Dusk.MlsagMem.C81_twice_violated: Classical.choice, Quot.sound, propext
Dusk.MlsagMem.C81_signature_violated: Classical.choice, Quot.sound, propext
Dusk.MlsagMem.C82_decoys: Classical.choice, Quot.sound, propext
Dusk.MlsagMem.C82_refines: Classical.choice, Quot.sound, propext
Dusk.MlsagMem.C82_message: Quot.sound, propext
Dusk.MlsagMem.C82_full: Classical.choice, Quot.sound, propext
Dusk.MlsagMem.C82_second_violated: Classical.choice, Quot.sound, propext
Dusk.MlsagMem.C82_room: Classical.choice, Quot.sound, propext
Dusk.MlsagMem.C82_panic_violated: Classical.choice, Quot.sound, propext
Dusk.Mlsag.C83_outcome: Classical.choice, Quot.sound, propext
Dusk.Mlsag.C83_ok_iff: Classical.choice, Quot.sound, propext
Dusk.Mlsag.C84_panic: Classical.choice, Quot.sound, propext
Dusk.Mlsag.C84_outcome: Classical.choice, Quot.sound, propext
Dusk.Bls.C85_hex: Classical.choice, Quot.sound, propext
Dusk.Bls.C85_hex_accepts: Classical.choice, Quot.sound, propext
Dusk.Bls.C85_g1: Classical.choice, Quot.sound, propext
Dusk.Bls.C85_g2: Classical.choice, Quot.sound, propext
Dusk.Bls.C85_init: Classical.choice, Quot.sound, propext
Dusk.RP.C86_shapes: Classical.choice, Quot.sound, propext
Dusk.RP.C86_panic: Classical.choice, Quot.sound, propext
Dusk.RP.C86_remote_violated: Classical.choice, Quot.sound, propext
Dusk.Mlsag.C87_mlsag: Classical.choice, Quot.sound, propext
Dusk.Mlsag.C87_mlsag_model: Classical.choice, Quot.sound, propext
Dusk.Mlsag.C87_mlsag_alloc_violated: Classical.choice, Quot.sound, propext
Dusk.Mlsag.C87_mlsag_alloc_failed_violated: Classical.choice, Quot.sound, propext
Dusk.Mlsag.C87_mlsag_bound: Classical.choice, Quot.sound, propext
Dusk.Mlsag.C87_mlsag_mixture_violated: Classical.choice, Quot.sound, propext
Dusk.RP.C87_innerproduct: Classical.choice, Quot.sound, propext
Dusk.RP.C87_rangeproof: Classical.choice, Quot.sound, propext
Dusk.RP.C87_rangeproof_bare: Classical.choice, Quot.sound, propext
Dusk.RP.C87_rangeproof_alloc_violated: Classical.choice, Quot.sound, propext
Dusk.RP.C87_rangeproof_model: Quot.sound, propext
Dusk.RP.C87_rangeproof_mixture_violated: Classical.choice, Quot.sound, propext
Dusk.Merkle.C88_verifyTree: Classical.choice, Quot.sound, propext
Dusk.Merkle.C88_verifyTree_ok: Classical.choice, Quot.sound, propext
Dusk.Merkle.C88_newTree: propext
Dusk.Merkle.C88_rebuild: Classical.choice, Quot.sound, propext
Dusk.Mlsag.C89_pubkeys: Classical.choice, Quot.sound, propext
Dusk.Mlsag.C89_append: Quot.sound, propext
Dusk.Mlsag.C89_isNumInList: propext
Dusk.Mlsag.C89_readerToPoint: Quot.sound, propext
Dusk.Mlsag.C89_responses_decode: Classical.choice, Quot.sound, propext
Dusk.Mlsag.C89_pubkeys_decode: Classical.choice, Quot.sound, propext
Dusk.Mlsag.C89_reuse_violated: Classical.choice, Quot.sound, propext
Dusk.Mlsag.C89_handed_out: Classical.choice, Quot.sound, propext
Dusk.Mlsag.C89_lenMembers: Classical.choice, Quot.sound, propext
Dusk.RPMem.C90_refines: Classical.choice, Quot.sound, propext
Dusk.RPMem.C90_memory: Classical.choice, Quot.sound, propext
Dusk.RPMem.C90_unchanged_iff: Classical.choice, Quot.sound, propext
Dusk.RPMem.C90_overwritten_pos: Classical.choice, Quot.sound, propext
Dusk.RPMem.C90_other_slice_violated: Classical.choice, Quot.sound, propext
Dusk.PedMem.C91_commit: Classical.choice, Quot.sound, propext
Dusk.PedMem.C91_memory: Classical.choice, Quot.sound, propext
Dusk.PedMem.C91_chain: Classical.choice, Quot.sound, propext
Dusk.PedMem.C91_isolated: Classical.choice, Quot.sound, propext
Dusk.PedMem.C91_seed_kept_violated: Classical.choice, Quot.sound, propext
Dusk.PedMem.C91_cross_violated: Classical.choice, Quot.sound, propext
Dusk.HashMem.C92_append: Classical.choice, Quot.sound, propext
Dusk.HashMem.C92_private: Classical.choice, Quot.sound, propext
Dusk.HashMem.C92_copy_violated: Classical.choice, Quot.sound, propext
Dusk.HashMem.C92_result_violated: Classical.choice, Quot.sound, propext
Dusk.VecMem.C93_binary: Classical.choice, Quot.sound, propext
Dusk.VecMem.C93_unary: Classical.choice, Quot.sound, propext
Dusk.VecMem.C93_new: Classical.choice, Quot.sound, propext
Dusk.VecMem.C93_alias_violated: Classical.choice, Quot.sound, propext
Dusk.VecMem.C93_split: Classical.choice, Quot.sound, propext
Dusk.VecMem.C93_split_violated: Classical.choice, Quot.sound, propext
Dusk.IPMem.C94_result: Classical.choice, Quot.sound, propext
Dusk.IPMem.C94_memory: Classical.choice, Quot.sound, propext
Dusk.IPMem.C94_overlap: Classical.choice, Quot.sound, propext
Dusk.Blsag.C95_special_soundness: Classical.choice, Quot.sound, propext
Dusk.Blsag.C95_closed: Classical.choice, Quot.sound, propext
Dusk.Blsag.C95_order: Classical.choice, Quot.sound, propext
Dusk.Blsag.C95_extract: Classical.choice, Quot.sound, propext
Dusk.Blsag.C96_forgery_violated: Classical.choice, Quot.sound, propext
Dusk.Blsag.C96_honest_ring_violated: Classical.choice, Quot.sound, propext
Dusk.Blsag.C97_blsag_violated: Classical.choice, Quot.sound, propext
Dusk.Mlsag.C97_mlsag_violated: Classical.choice, Quot.sound, propext
Dusk.RP.C98_reads: Classical.choice, Quot.sound, propext
Dusk.RP.C98_alone: Classical.choice, Quot.sound, propext
Dusk.RP.C98_verifiers: Classical.choice, Quot.sound, propext
Dusk.RP.C98_uniform: Classical.choice, Quot.sound, propext
Dusk.RP.C98_interleaved: Classical.choice, Quot.sound, propext
Dusk.RP.C98_error_violated: Classical.choice, Quot.sound, propext
Dusk.RP.C98_panic_violated: Classical.choice, Quot.sound, propext
Dusk.RP.C99_forgery_violated: Classical.choice, Quot.sound, propext
Dusk.IP.C100_shapes: Classical.choice, Quot.sound, propext
Dusk.IP.C100_single: Classical.choice, Quot.sound, propext
Dusk.IP.C100_empty: Classical.choice, Quot.sound, propext
Dusk.RP.C101_disagree: Classical.choice, Quot.sound, propext
Dusk.RP.C101_agree: Classical.choice, Quot.sound, propext
Dusk.RP.C101_returned: Classical.choice, Quot.sound, propext
Dusk.RP.C101_interleaved: Classical.choice, Quot.sound, propext
Dusk.RP.C101_panic_violated: Classical.choice, Quot.sound, propext
Dusk.RP.C102_verify_alone: Classical.choice, Quot.sound, propext
Dusk.RP.C102_prove_alone: Classical.choice, Quot.sound, propext
Dusk.RP.C102_concurrent: Classical.choice, Quot.sound, propext
Dusk.RP.C103_reachable: Classical.choice, Quot.sound, propext
Dusk.RP.C103_sum: Classical.choice, Quot.sound, propext
Dusk.RP.C103_sum_fail: Classical.choice, Quot.sound, propext
Dusk.RP.C103_blinding: Classical.choice, Quot.sound, propext
Dusk.RP.C104_returned: Classical.choice, Quot.sound, propext
Dusk.RP.C104_verify: Classical.choice, Quot.sound, propext
Dusk.RP.C104_reached: Classical.choice, Quot.sound, propext
Dusk.RP.C104_interleaved: Classical.choice, Quot.sound, propext
Dusk.RP.C104_rejected_violated: Classical.choice, Quot.sound, propext
Dusk.RP.C105_unblinded_violated: Classical.choice, Quot.sound, propext
Dusk.RP.C106_accepts: Classical.choice, Quot.sound, propext
Dusk.RP.C106_panics: Classical.choice, Quot.sound, propext
Dusk.RP.C106_refuses_violated: Classical.choice, Quot.sound, propext
Dusk.RP.C106_reached: Classical.choice, Quot.sound, propext
Dusk.RP.C106_interleaved: Classical.choice, Quot.sound, propext
Dusk.Mlsag.C107_exact: Classical.choice, Quot.sound, propext
Dusk.Mlsag.C107_signers: Classical.choice, Quot.sound, propext
Dusk.Mlsag.C107_count: Classical.choice, Quot.sound, propext
Dusk.Blsag.C108_exact: Classical.choice, Quot.sound, propext
Dusk.Blsag.C108_count: Classical.choice, Quot.sound, propext
Dusk.Blsag.C108_first_violated: Classical.choice, Quot.sound, propext
Dusk.Mlsag.C109_image_violated: Classical.choice, Quot.sound, propext
Dusk.Mlsag.C110_linkable: Classical.choice, Quot.sound, propext
Dusk.Blsag.C111_image_violated: Classical.choice, Quot.sound, propext
Dusk.Blsag.C111_linkable: Classical.choice, Quot.sound, propext
Dusk.Mlsag.C112_unforgeable: Classical.choice, Quot.sound, propext
Dusk.Blsag.C113_unforgeable: Classical.choice, Quot.sound, propext
Dusk.RP.C114_relation: Classical.choice, Quot.sound, propext
Dusk.RP.C114_opening: Classical.choice, Quot.sound, propext
Dusk.RP.C114_soundness: Classical.choice, Quot.sound, propext
Dusk.Mlsag.C115_simulated: Classical.choice, Quot.sound, propext
Dusk.Mlsag.C115_discrete_logarithms: Classical.choice, Quot.sound, propext
Dusk.Mlsag.C115_images_from_keys: Classical.choice, Quot.sound, propext
Dusk.Mlsag.C116_image_of_member: Classical.choice, Quot.sound, propext
Dusk.Mlsag.C116_exculpable: Classical.choice, Quot.sound, propext
Dusk.Mlsag.C117_linkable: Classical.choice, Quot.sound, propext
Dusk.Mlsag.C118_column: Classical.choice, Quot.sound, propext
Dusk.Mlsag.C118_same_value: Classical.choice, Quot.sound, propext
Dusk.Mlsag.C118_any_value_violated: Classical.choice, Quot.sound, propext
Dusk.Mlsag.C119_responses: Classical.choice, Quot.sound, propext
Dusk.Mlsag.C119_pubkeys: Classical.choice, Quot.sound, propext
Dusk.Mlsag.C119_mlsag: Classical.choice, Quot.sound, propext
Dusk.RP.C119_commitment: Quot.sound, propext
Dusk.RP.C119_rangeproof: Classical.choice, Quot.sound, propext
Dusk.RP.C119_stale_blinding_violated: Quot.sound, propext
Dusk.Blsag.C120_image_of_member: Classical.choice, Quot.sound, propext
Dusk.Blsag.C120_exculpable: Classical.choice, Quot.sound, propext
Dusk.Mlsag.C121_mlsag: Classical.choice, Quot.sound, propext
Dusk.Mlsag.C121_mlsag_message: Classical.choice, Quot.sound, propext
Dusk.Mlsag.C121_longer_message_violated: Classical.choice, Quot.sound, propext
Dusk.Blsag.C121_blsag: Classical.choice, Quot.sound, propext
Dusk.Bls.C121_bls_message: Classical.choice, Quot.sound, propext
Dusk.Bls.C121_bls_key: Classical.choice, Quot.sound, propext
Dusk.RP.C122_delta: Classical.choice, Quot.sound, propext
Dusk.RP.C122_delta_one: Classical.choice, Quot.sound, propext
Dusk.RP.C122_t0: Classical.choice, Quot.sound, propext
Dusk.Mlsag.C122_bad_message: Classical.choice, Quot.sound, propext
Dusk.Blsag.C122_wrong_message: Classical.choice, Quot.sound, propext
Dusk.Bls.C122_sign_verify: Classical.choice, Quot.sound, propext
Dusk.Hash.C122_checksum_violated: propext
Dusk.RP.C123_same: Classical.choice, Quot.sound, propext
Dusk.RP.C123_nil: Classical.choice, Quot.sound, propext
Dusk.RP.C123_wrong_rounds: Classical.choice, Quot.sound, propext
Dusk.RP.C123_right_rounds: Classical.choice, Quot.sound, propext
Dusk.RP.C123_exponential_violated: Classical.choice, Quot.sound, propext
Dusk.RP.C123_failed_prove_violated: Classical.choice, Quot.sound, propext
Dusk.MerkleMem.C124_concurrent: Classical.choice, Quot.sound, propext
Dusk.MerkleMem.C124_alone: Classical.choice, Quot.sound, propext
Dusk.MerkleMem.C124_finish: propext
Dusk.MerkleMem.C124_same: Quot.sound, propext
Dusk.MerkleMem.C124_good_tree: Classical.choice, Quot.sound, propext
Dusk.MerkleMem.C124_verify_writes_violated: Classical.choice, Quot.sound, propext
Dusk.MerkleMem.C124_content_writes_violated: Classical.choice, Quot.sound, propext
Dusk.MerkleMem.C124_fresh_rejected_violated: Classical.choice, Quot.sound, propext
Dusk.MerkleMem.C124_fresh_false_violated: Classical.choice, Quot.sound, propext
Dusk.MerkleMem.C124_race_violated: Classical.choice, Quot.sound, propext
Dusk.MerkleMem.C124_verify_race_violated: Classical.choice, Quot.sound, propext
Dusk.PedConc.C125_alone: Quot.sound, propext
Dusk.PedConc.C125_shared: Classical.choice, Quot.sound, propext
Dusk.PedConc.C125_precomputed: Quot.sound, propext
Dusk.PedConc.C125_repeated_violated: Quot.sound, propext
Dusk.PedConc.C125_not_binding_violated: Quot.sound, propext
Dusk.PedConc.C125_commit_race_violated: Quot.sound, propext
Dusk.PedConc.C125_huge_violated: Quot.sound, propext
Dusk.PointOracle.C126_dlog: Classical.choice, Quot.sound, propext
Dusk.PointOracle.C126_relation: Classical.choice, Quot.sound, propext
Dusk.PointOracle.C126_uniform: Classical.choice, Quot.sound, propext
Dusk.PointOracle.C126_scalar_binding: Classical.choice, Quot.sound, propext
Dusk.PointOracle.C126_vector_binding: Classical.choice, Quot.sound, propext
Dusk.PointOracle.C126_soundness: Classical.choice, Quot.sound, propext
Dusk.Mlsag.C127_invented: Classical.choice, Quot.sound, propext
Dusk.Mlsag.C127_two_worlds: Classical.choice, Quot.sound, propext
Dusk.Mlsag.C127_random_images: Classical.choice, Quot.sound, propext
Dusk.Mlsag.C127_encoding: Quot.sound, propext
Dusk.Mlsag.C127_marked_violated: Classical.choice, Quot.sound, propext
Dusk.Mlsag.C128_mlsag_known_violated: Classical.choice, Quot.sound, propext
Dusk.Mlsag.C128_mlsag_repeated_violated: Classical.choice, Quot.sound, propext
Dusk.Blsag.C128_blsag_known_violated: Classical.choice, Quot.sound, propext
Dusk.Blsag.C128_blsag_repeated_violated: Classical.choice, Quot.sound, propext
Dusk.RP.C128_range_violated: Classical.choice, Quot.sound, propext
Dusk.RP.C128_range_value_violated: Classical.choice, Quot.sound, propext
Dusk.RP.C128_commitment_violated: Quot.sound, propext
Dusk.Mlsag.C129_ddh: Classical.choice, Quot.sound, propext
Dusk.Merkle.C130_counted: Quot.sound, propext
Dusk.Merkle.C130_newTree: Classical.choice, Quot.sound, propext
Dusk.Merkle.C130_newTree_fail: Quot.sound, propext
Dusk.Merkle.C130_verifyTree: Classical.choice, Quot.sound, propext
Dusk.Merkle.C130_verifyTree_violated: Classical.choice, Quot.sound, propext
Dusk.Merkle.C130_verifyNode_violated: Quot.sound, propext
Dusk.Merkle.C130_verifyContent_found: Classical.choice, Quot.sound, propext
Dusk.Merkle.C130_verifyContent_violated: Classical.choice, Quot.sound, propext
Dusk.Merkle.C130_verifyNode_any: Classical.choice, Quot.sound, propext
Dusk.RP.C131_relations: Classical.choice, Quot.sound, propext
Dusk.RP.C131_determined: Classical.choice, Quot.sound, propext
Dusk.RP.C131_dlog: Classical.choice, Quot.sound, propext
Dusk.RP.C131_sharp: Classical.choice, Quot.sound, propext
Dusk.BlsConc.C132_anytime: Classical.choice, Quot.sound, propext
Dusk.BlsConc.C132_locked: Classical.choice, Quot.sound, propext
Dusk.BlsConc.C132_exact: Classical.choice, Quot.sound, propext
Dusk.BlsConc.C132_alone: Classical.choice, Quot.sound, propext
Dusk.BlsConc.C132_violated: Classical.choice, Quot.sound, propext
Dusk.BnCurve.C133_primes: Classical.choice, Quot.sound, propext
Dusk.BnCurve.C133_g1: Classical.choice, Quot.sound, propext
Dusk.BnCurve.C133_curve: Classical.choice, Quot.sound, propext
Dusk.BnCurve.C133_g2: Classical.choice, Quot.sound, propext
Dusk.BnCurve.C133_twist: Classical.choice, Quot.sound, propext
Dusk.BnCurve.C133_instance: Classical.choice, Quot.sound, propext
Dusk.Mlsag.C134_prove: Classical.choice, Quot.sound, propext
Dusk.Mlsag.C134_signer: Classical.choice, Quot.sound, propext
Dusk.Mlsag.C134_position_violated: Classical.choice, Quot.sound, propext
Dusk.Mlsag.C134_dualKey: Classical.choice, Quot.sound, propext
Dusk.Mlsag.C134_verify: Classical.choice, Quot.sound, propext
Dusk.Blsag.C134_sign: Classical.choice, Quot.sound, propext
Dusk.Blsag.C134_sign_independent: Classical.choice, Quot.sound, propext
Dusk.Blsag.C134_verify: Classical.choice, Quot.sound, propext
Dusk.RP.C135_prove: Classical.choice, Quot.sound, propext
Dusk.RP.C135_independent: Classical.choice, Quot.sound, propext
Dusk.RP.C135_branches_violated: Classical.choice, Quot.sound, propext
Dusk.RP.C135_values_violated: Classical.choice, Quot.sound, propext
Dusk.RP.C135_cost: Classical.choice, Quot.sound, propext
Dusk.RP.C135_vector: Classical.choice, Quot.sound, propext
Dusk.MlsagConc.C136_alone: Classical.choice, Quot.sound, propext
Dusk.MlsagConc.C136_decoys_locked: Classical.choice, Quot.sound, propext
Dusk.MlsagConc.C136_decoys_violated: Classical.choice, Quot.sound, propext
Dusk.MlsagConc.C136_message_violated: Classical.choice, Quot.sound, propext
Dusk.MlsagConc.C136_ring_violated: Classical.choice, Quot.sound, propext
Dusk.MlsagConc.C136_zero_key_violated: Classical.choice, Quot.sound, propext
Dusk.MlsagConc.C136_panic_violated: Classical.choice, Quot.sound, propext
Dusk.MlsagConc.C136_subtract_violated: Classical.choice, Quot.sound, propext
Dusk.Bls.C137_exact: Classical.choice, Quot.sound, propext
Dusk.Bls.C137_sum_violated: Classical.choice, Quot.sound, propext
Dusk.Bls.C137_secret: Classical.choice, Quot.sound, propext
Dusk.Bls.C137_bound: Classical.choice, Quot.sound, propext
Dusk.Bls.C137_exists_violated: Classical.choice, Quot.sound, propext
Dusk.Bls.C137_table: Classical.choice, Quot.sound, propext
Dusk.MerkleShare.C138_alone_using: Classical.choice, Quot.sound, propext
Dusk.MerkleShare.C138_alone_verify: propext
Dusk.MerkleShare.C138_alone_content: propext
Dusk.MerkleShare.C138_alone_rebuild: Classical.choice, Quot.sound, propext
Dusk.MerkleShare.C138_answers: Classical.choice, Quot.sound, propext
Dusk.MerkleShare.C138_fields: Classical.choice, Quot.sound, propext
Dusk.MerkleShare.C138_verify_violated: Classical.choice, Quot.sound, propext
Dusk.MerkleShare.C138_undone_violated: Classical.choice, Quot.sound, propext
Dusk.MerkleShare.C138_mixed_violated: Classical.choice, Quot.sound, propext
Dusk.Convert.C139_same_violated: Classical.choice, Quot.sound, propext
Dusk.Convert.C139_single_violated: Classical.choice, Quot.sound, propext
Dusk.Convert.C139_replay_violated: Classical.choice, Quot.sound, propext
Dusk.Convert.C139_decode_violated: Classical.choice, Quot.sound, propext
Dusk.Convert.C139_sign_violated: Classical.choice, Quot.sound, propext
Dusk.Convert.C139_linked: Classical.choice, Quot.sound, propext
Dusk.Convert.C139_prove_violated: Classical.choice, Quot.sound, propext
Dusk.Mlsag.C140_signature_size: Quot.sound, propext
Dusk.Mlsag.C140_prove_size: Classical.choice, Quot.sound, propext
Dusk.Mlsag.C140_signature_stream: Quot.sound, propext
Dusk.C140_commitments_size: Quot.sound, propext
Dusk.C140_commitments_stream: Quot.sound, propext
Dusk.RP.C140_proof_size: Classical.choice, Quot.sound, propext
Dusk.RP.C140_tail_violated: Quot.sound, propext
Dusk.RP.C140_two_proofs_violated: Classical.choice, Quot.sound, propext
Dusk.Bls.C141_exact: Classical.choice, Quot.sound, propext
Dusk.Bls.C141_order: Classical.choice, Quot.sound, propext
Dusk.Bls.C141_one: Classical.choice, Quot.sound, propext
Dusk.Bls.C141_cancel_violated: Classical.choice, Quot.sound, propext
Dusk.Bls.C141_multi_exact: Classical.choice, Quot.sound, propext
Dusk.Bls.C141_multi_cancel_violated: Classical.choice, Quot.sound, propext
Dusk.Merkle.C142_same_violated: Classical.choice, Quot.sound, propext
Dusk.Merkle.C142_exact: Classical.choice, Quot.sound, propext
Dusk.Merkle.C142_distinct: Classical.choice, Quot.sound, propext
Dusk.Merkle.C142_tree: Classical.choice, Quot.sound, propext
Dusk.Merkle.C142_tree_distinct: Classical.choice, Quot.sound, propext
Dusk.Merkle.C143_binding: Classical.choice, Quot.sound, propext
Dusk.Merkle.C143_length_violated: Classical.choice, Quot.sound, propext
Dusk.Merkle.C143_repeat_violated: Classical.choice, Quot.sound, propext
Dusk.Merkle.C143_attackers: Classical.choice, Quot.sound, propext
Dusk.Hash.Conc.C144_exact_violated: Classical.choice, Quot.sound, propext
Dusk.Hash.Conc.C144_broken: Quot.sound, propext
Dusk.Hash.Conc.C144_both_violated: Classical.choice, Quot.sound, propext
Dusk.Mlsag.C145_orderings_violated: Classical.choice, Quot.sound, propext
Dusk.Mlsag.C145_window_violated: Classical.choice, Quot.sound, propext
Dusk.Blsag.C145_period_violated: Classical.choice, Quot.sound, propext
Dusk.Blsag.C145_shared_violated: Quot.sound, propext
Dusk.Blsag.C145_goroutines: Quot.sound, propext
Dusk.Blsag.C145_goroutines_violated: propext
Dusk.C145_draws: Quot.sound, propext
Dusk.C145_every_order: Classical.choice, Quot.sound, propext
Dusk.Mlsag.C146_signature_violated: Classical.choice, Quot.sound, propext
Dusk.Mlsag.C146_signature_cut_violated: Quot.sound, propext
Dusk.IP.C146_innerproduct_violated: Classical.choice, Quot.sound, propext
Dusk.C146_commitments_violated: Classical.choice, Quot.sound, propext
Dusk.Pedersen.C146_pedersen_violated: Classical.choice, Quot.sound, propext
Dusk.IP.C147_innerproduct: Classical.choice, Quot.sound, propext
Dusk.RP.C147_rangeproof: Classical.choice, Quot.sound, propext
Dusk.RP.C147_out_of_range: Classical.choice, Quot.sound, propext
Dusk.RP.C147_error: Classical.choice, Quot.sound, propext
Dusk.Bls.C148_same: Classical.choice, Quot.sound, propext
Dusk.Bls.C148_sign: Classical.choice, Quot.sound, propext
Dusk.Bls.C148_verify: Classical.choice, Quot.sound, propext
Dusk.Bls.C148_batch: Classical.choice, Quot.sound, propext
Dusk.Bls.C148_repeated: Classical.choice, Quot.sound, propext
Dusk.Bls.C148_empty: Classical.choice, Quot.sound, propext
Dusk.Bls.C148_short: Classical.choice, Quot.sound, propext
Dusk.Bls.C148_aggregate: Classical.choice, Quot.sound, propext
Dusk.Bls.C148_pairings: Classical.choice, Quot.sound, propext
Dusk.Bls.C148_saving: Classical.choice, Quot.sound, propext
Dusk.C149_totals: Classical.choice, Quot.sound, propext
Dusk.C149_number: Quot.sound, propext
Dusk.C149_unchecked_violated: Quot.sound, propext
Dusk.RP.C149_proofs: Classical.choice, Quot.sound, propext
Dusk.Bls.C150_key_violated: Classical.choice, Quot.sound, propext
Dusk.Bls.C150_only: Classical.choice, Quot.sound, propext
Dusk.Bls.C150_member_violated: Classical.choice, Quot.sound, propext
Dusk.Bls.C150_batch_violated: Classical.choice, Quot.sound, propext
Dusk.Bls.C150_generated: Classical.choice, Quot.sound, propext
Dusk.Mlsag.C150_ring_violated: Classical.choice, Quot.sound, propext
Dusk.Mlsag.C150_image: Classical.choice, Quot.sound, propext
Dusk.Mlsag.C151_balance: Classical.choice, Quot.sound, propext
Dusk.Mlsag.C151_proofs: Classical.choice, Quot.sound, propext
Dusk.Mlsag.C151_double: Classical.choice, Quot.sound, propext
Dusk.Mlsag.C151_honest: Classical.choice, Quot.sound, propext
Dusk.Mlsag.C151_same_blinding: Classical.choice, Quot.sound, propext
Dusk.Mlsag.C151_adds_up: Quot.sound, propext
Dusk.Mlsag.C151_forked: Quot.sound, propext
Dusk.Vec.C152_outcome: Classical.choice, Quot.sound, propext
Dusk.Vec.C152_fits: Classical.choice, Quot.sound, propext
Dusk.Vec.C152_calls: Classical.choice, Quot.sound, propext
Dusk.Vec.C152_violated: Classical.choice, Quot.sound, propext
Dusk.Vec.C152_refused: Classical.choice, Quot.sound, propext
Dusk.C153_seed_violated: Classical.choice, Quot.sound, propext
Dusk.C153_commitment_violated: Classical.choice, Quot.sound, propext
Dusk.C153_image_violated: Classical.choice, Quot.sound, propext
Dusk.C153_meet: Quot.sound, propext
Dusk.C153_library: Quot.sound, propext
Dusk.C153_image_library: Quot.sound, propext
Dusk.C153_query: Quot.sound, propext
Dusk.C153_challenge_violated: Classical.choice, Quot.sound, propext
Dusk.C153_inner_violated: Classical.choice, Quot.sound, propext
Dusk.Mlsag.C154_received: Quot.sound, propext
Dusk.Mlsag.C154_outcome: Classical.choice, Quot.sound, propext
Dusk.Mlsag.C154_panic_violated: Classical.choice, Quot.sound, propext
Dusk.Mlsag.C154_alone_violated: Classical.choice, Quot.sound, propext
Dusk.C155_value: Classical.choice, Quot.sound, propext
Dusk.C155_zeros_violated: Classical.choice, Quot.sound, propext
Dusk.C155_binding: Classical.choice, Quot.sound, propext
Dusk.C155_scalar_violated: Classical.choice, Quot.sound, propext
Dusk.C155_none_violated: Classical.choice, Quot.sound, propext
Dusk.Mlsag.C156_keys: Classical.choice, Quot.sound, propext
Dusk.Mlsag.C156_supply: Classical.choice, Quot.sound, propext
Dusk.Mlsag.C156_fees: Classical.choice, Quot.sound, propext
Dusk.Mlsag.C156_spendable: Classical.choice, Quot.sound, propext
Dusk.Mlsag.C156_minted: Classical.choice, Quot.sound, propext
Dusk.Mlsag.C156_burnt_violated: Classical.choice, Quot.sound, propext
Dusk.Mlsag.C157_amounts: Classical.choice, Quot.sound, propext
Dusk.Mlsag.C157_accepted: Classical.choice, Quot.sound, propext
Dusk.Mlsag.C157_value_violated: Classical.choice, Quot.sound, propext
Dusk.Via.C158_proof_agrees: Quot.sound, propext
Dusk.Via.C158_proof_nil: Quot.sound, propext
Dusk.Via.C158_vectors: Classical.choice, Quot.sound, propext
Dusk.Via.C158_signature: Quot.sound, propext
Dusk.Via.C158_dual_agrees: Classical.choice, Quot.sound, propext
Dusk.Via.C158_dual_zero: Quot.sound, propext
Dusk.Via.C158_dual_nil: Quot.sound, propext
Dusk.Via.C158_commit_agrees: Quot.sound, propext
Dusk.Via.C158_commit_nil: Quot.sound, propext
Dusk.Via.C158_proofs_nil: Classical.choice, Quot.sound, propext
Dusk.Via.C158_proofs_agree: Classical.choice, Quot.sound, propext
Dusk.Via.C158_tree_agrees: propext
Dusk.Via.C158_tree_nil: Classical.choice, Quot.sound, propext
Dusk.Via.C158_sign: Classical.choice, Quot.sound, propext
Dusk.Via.C158_bls_agrees: Classical.choice, Quot.sound, propext
Dusk.Via.C158_sig_nil_bytes: Classical.choice, Quot.sound, propext
Dusk.Via.C158_sig_nil_parse: Classical.choice, Quot.sound, propext
Dusk.Via.C158_pk_nil: Classical.choice, Quot.sound, propext
Dusk.Via.C158_bls_nil: Classical.choice, Quot.sound, propext
Dusk.Mlsag.C159_send: Quot.sound, propext
Dusk.Mlsag.C159_receive: Classical.choice, Quot.sound, propext
Dusk.Mlsag.C159_size: Quot.sound, propext
Dusk.Mlsag.C159_verdict: Quot.sound, propext
Dusk.Mlsag.C159_arrives: Classical.choice, Quot.sound, propext
Dusk.Mlsag.C159_inflation_violated: Classical.choice, Quot.sound, propext
Dusk.RP.C160_debug: Classical.choice, Quot.sound, propext
Dusk.RP.C160_disagree: Classical.choice, Quot.sound, propext
Dusk.RP.C160_panic: Classical.choice, Quot.sound, propext
Dusk.RP.C160_interleaved: Classical.choice, Quot.sound, propext
Dusk.RP.C160_disturbed_violated: Classical.choice, Quot.sound, propext
Dusk.Mlsag.C161_read: Quot.sound, propext
Dusk.Mlsag.C161_crash: Classical.choice, Quot.sound, propext
Dusk.Mlsag.C161_careful: Classical.choice, Quot.sound, propext
Dusk.Mlsag.C161_signature_violated: Classical.choice, Quot.sound, propext
Dusk.Mlsag.C161_range_violated: Classical.choice, Quot.sound, propext
Dusk.Mlsag.C162_exact: Classical.choice, Quot.sound, propext
Dusk.Mlsag.C162_unique: Classical.choice, Quot.sound, propext
Dusk.Mlsag.C162_shown: Classical.choice, Quot.sound, propext
Dusk.Mlsag.C162_same: Classical.choice, Quot.sound, propext
Dusk.Mlsag.C162_chance: Classical.choice, Quot.sound, propext
Dusk.Mlsag.C162_commitment_violated: Classical.choice, Quot.sound, propext
Dusk.Mlsag.C163_spends: Classical.choice, Quot.sound, propext
Dusk.Mlsag.C163_ddh: Classical.choice, Quot.sound, propext
Dusk.Mlsag.C164_theft: Classical.choice, Quot.sound, propext
Dusk.Mlsag.C165_burn: Classical.choice, Quot.sound, propext
Dusk.Mlsag.C166_image: Classical.choice, Quot.sound, propext
