{
 "claims": [
  {
   "property": "C01",
   "status": "proved",
   "theorems": [
    "Dusk.Hash.C01_oneshot",
    "Dusk.Hash.C01_perform",
    "Dusk.Hash.C01_perform_broken",
    "Dusk.Hash.C01_xxhash_bytes"
   ],
   "note": ""
  },
  {
   "property": "C02",
   "status": "proved",
   "theorems": [
    "Dusk.Hash.C02_checksum",
    "Dusk.Hash.C02_compare",
    "Dusk.Hash.C02_unique"
   ],
   "note": ""
  },
  {
   "property": "C03",
   "status": "proved",
   "theorems": [
    "Dusk.Hash.C03_entropy",
    "Dusk.Hash.C03_success"
   ],
   "note": ""
  },
  {
   "property": "C04",
   "status": "proved",
   "theorems": [
    "Dusk.Merkle.C04_newTree_terminates",
    "Dusk.Merkle.C04_newTree_ok_iff",
    "Dusk.Merkle.C04_newTree_err",
    "Dusk.Merkle.C04_first_failure",
    "Dusk.Merkle.C04_single_node_diverges"
   ],
   "note": ""
  },
  {
   "property": "C05",
   "status": "proved",
   "theorems": [
    "Dusk.Merkle.C05_merkleRoot"
   ],
   "note": ""
  },
  {
   "property": "C06",
   "status": "proved",
   "theorems": [
    "Dusk.Merkle.C06_newTree_verifies",
    "Dusk.Merkle.C06_history_verifies"
   ],
   "note": ""
  },
  {
   "property": "C07",
   "status": "proved",
   "theorems": [
    "Dusk.Merkle.C07_membership",
    "Dusk.Merkle.C07_unhashable"
   ],
   "note": ""
  },
  {
   "property": "C08",
   "status": "proved",
   "theorems": [
    "Dusk.Merkle.C08_root_binding",
    "Dusk.Merkle.C08_tree_binding",
    "Dusk.Merkle.C08_digest_length_needed"
   ],
   "note": ""
  },
  {
   "property": "C09",
   "status": "proved",
   "theorems": [
    "Dusk.Merkle.C09_rebuild",
    "Dusk.Merkle.C09_rebuild_idempotent",
    "Dusk.Merkle.C09_rebuildUsing_ok",
    "Dusk.Merkle.C09_rebuildUsing_fail",
    "Dusk.Merkle.C09_rebuild_drops_dup"
   ],
   "note": ""
  },
  {
   "property": "C10",
   "status": "proved",
   "theorems": [
    "Dusk.Merkle.C10_odd_repeat_violated",
    "Dusk.Merkle.C10_interior_violated",
    "Dusk.Merkle.C10_four_two_violated"
   ],
   "note": "the code violates the expected property; the theorems prove the violation in general and the part that holds"
  },
  {
   "property": "C11",
   "status": "proved",
   "theorems": [
    "Dusk.Merkle.C11_leaves",
    "Dusk.Merkle.C11_depth"
   ],
   "note": ""
  },
  {
   "property": "C12",
   "status": "proved",
   "theorems": [
    "Dusk.Merkle.C12_verifyTree",
    "Dusk.Merkle.C12_payload_change_reported",
    "Dusk.Merkle.C12_stored_hashes_unread",
    "Dusk.Merkle.C12_verifyContent",
    "Dusk.Merkle.C12_verifyContent_absent",
    "Dusk.Merkle.C12_merkleRoot_unread",
    "Dusk.Merkle.C12_path_hash_reported",
    "Dusk.Merkle.C12_sibling_payload_reported",
    "Dusk.Merkle.C12_other_payload_unread"
   ],
   "note": ""
  },
  {
   "property": "C13",
   "status": "proved",
   "theorems": [
    "Dusk.MerkleMem.C13_no_write_full",
    "Dusk.MerkleMem.C13_overwrite_violated",
    "Dusk.MerkleMem.C13_single_overwrite_violated",
    "Dusk.MerkleMem.C13_wrong_root_violated"
   ],
   "note": "the code violates the expected property; the theorems prove the violation in general and the part that holds"
  },
  {
   "property": "C14",
   "status": "proved",
   "theorems": [
    "Dusk.Mlsag.C14_prove",
    "Dusk.Mlsag.C14_completeness"
   ],
   "note": ""
  },
  {
   "property": "C15",
   "status": "proved",
   "theorems": [
    "Dusk.Mlsag.C15_ring"
   ],
   "note": ""
  },
  {
   "property": "C16",
   "status": "proved",
   "theorems": [
    "Dusk.Mlsag.C16_images",
    "Dusk.Mlsag.C16_link",
    "Dusk.Mlsag.C16_dual"
   ],
   "note": ""
  },
  {
   "property": "C17",
   "status": "proved",
   "theorems": [
    "Dusk.Mlsag.C17_verify",
    "Dusk.Mlsag.C17_single",
    "Dusk.Mlsag.C17_empty"
   ],
   "note": ""
  },
  {
   "property": "C18",
   "status": "proved",
   "theorems": [
    "Dusk.Mlsag.C18_encode",
    "Dusk.Mlsag.C18_encode_empty",
    "Dusk.Mlsag.C18_decode",
    "Dusk.Mlsag.C18_roundtrip",
    "Dusk.Mlsag.C18_empty"
   ],
   "note": ""
  },
  {
   "property": "C19",
   "status": "proved",
   "theorems": [
    "Dusk.Mlsag.C19_mlsag",
    "Dusk.Mlsag.C19_commitments",
    "Dusk.Mlsag.C19_innerproduct",
    "Dusk.Mlsag.C19_rangeproof",
    "Dusk.Mlsag.C19_truncated"
   ],
   "note": ""
  },
  {
   "property": "C20",
   "status": "proved",
   "theorems": [
    "Dusk.Mlsag.C20_mlsag",
    "Dusk.Mlsag.C20_commitments",
    "Dusk.Mlsag.C20_innerproduct",
    "Dusk.Mlsag.C20_rangeproof"
   ],
   "note": ""
  },
  {
   "property": "C21",
   "status": "proved",
   "theorems": [
    "Dusk.Mlsag.C21_mlsag",
    "Dusk.Mlsag.C21_commitments",
    "Dusk.Mlsag.C21_innerproduct",
    "Dusk.Mlsag.C21_rangeproof"
   ],
   "note": ""
  },
  {
   "property": "C22",
   "status": "proved",
   "theorems": [
    "Dusk.Mlsag.C22_equal_counts",
    "Dusk.Mlsag.C22_extra_violated",
    "Dusk.Mlsag.C22_panic_violated",
    "Dusk.Mlsag.C22_outcome"
   ],
   "note": "the code violates the expected property; the theorems prove the violation in general and the part that holds"
  },
  {
   "property": "C23",
   "status": "proved",
   "theorems": [
    "Dusk.Mlsag.C23_zero",
    "Dusk.Mlsag.C23_prove",
    "Dusk.Mlsag.C23_success"
   ],
   "note": ""
  },
  {
   "property": "C24",
   "status": "proved",
   "theorems": [
    "Dusk.Mlsag.C24_violated",
    "Dusk.Mlsag.C24_ring_grows_violated"
   ],
   "note": "the code violates the expected property; the theorems prove the violation in general and the part that holds"
  },
  {
   "property": "C25",
   "status": "proved",
   "theorems": [
    "Dusk.Mlsag.C25_violated"
   ],
   "note": "the code violates the expected property; the theorems prove the violation in general and the part that holds"
  },
  {
   "property": "C26",
   "status": "proved",
   "theorems": [
    "Dusk.Mlsag.C26_panic_iff",
    "Dusk.Mlsag.C26_decoded",
    "Dusk.Mlsag.C26_decoded_verify"
   ],
   "note": ""
  },
  {
   "property": "C27",
   "status": "proved",
   "theorems": [
    "Dusk.Mlsag.C27_sub",
    "Dusk.Mlsag.C27_twice",
    "Dusk.Mlsag.C27_panic"
   ],
   "note": ""
  },
  {
   "property": "C28",
   "status": "proved",
   "theorems": [
    "Dusk.Mlsag.C28_order",
    "Dusk.Mlsag.C28_extract",
    "Dusk.Mlsag.C28_special_soundness"
   ],
   "note": ""
  },
  {
   "property": "C29",
   "status": "proved",
   "theorems": [
    "Dusk.Blsag.C29_completeness"
   ],
   "note": ""
  },
  {
   "property": "C30",
   "status": "proved",
   "theorems": [
    "Dusk.Blsag.C30_violated",
    "Dusk.Blsag.C30_mixins_ignored_violated"
   ],
   "note": "the code violates the expected property; the theorems prove the violation in general and the part that holds"
  },
  {
   "property": "C31",
   "status": "proved",
   "theorems": [
    "Dusk.Blsag.C31_violated"
   ],
   "note": "the code violates the expected property; the theorems prove the violation in general and the part that holds"
  },
  {
   "property": "C32",
   "status": "proved",
   "theorems": [
    "Dusk.Blsag.C32_verify",
    "Dusk.Blsag.C32_empty",
    "Dusk.Blsag.C32_short",
    "Dusk.Blsag.C32_group"
   ],
   "note": ""
  },
  {
   "property": "C33",
   "status": "proved",
   "theorems": [
    "Dusk.Blsag.C33_image"
   ],
   "note": ""
  },
  {
   "property": "C34",
   "status": "proved",
   "theorems": [
    "Dusk.Bls.C34_unsafe",
    "Dusk.Bls.C34_safe"
   ],
   "note": ""
  },
  {
   "property": "C35",
   "status": "proved",
   "theorems": [
    "Dusk.Bls.C35_multisig"
   ],
   "note": ""
  },
  {
   "property": "C36",
   "status": "proved",
   "theorems": [
    "Dusk.Bls.C36_unsafe",
    "Dusk.Bls.C36_safe",
    "Dusk.Bls.C36_compressed",
    "Dusk.Bls.C36_complete",
    "Dusk.Bls.C36_complete_safe"
   ],
   "note": ""
  },
  {
   "property": "C37",
   "status": "proved",
   "theorems": [
    "Dusk.Bls.C37_unsafe",
    "Dusk.Bls.C37_safe",
    "Dusk.Bls.C37_batch"
   ],
   "note": ""
  },
  {
   "property": "C38",
   "status": "proved",
   "theorems": [
    "Dusk.Bls.C38_unsafe_violated",
    "Dusk.Bls.C38_safe_violated",
    "Dusk.Bls.C38_sign_violated"
   ],
   "note": "the code violates the expected property; the theorems prove the violation in general and the part that holds"
  },
  {
   "property": "C39",
   "status": "proved",
   "theorems": [
    "Dusk.Bls.C39_distinct_violated",
    "Dusk.Bls.C39_classical_violated",
    "Dusk.Bls.C39_aggregate_violated"
   ],
   "note": "the code violates the expected property; the theorems prove the violation in general and the part that holds"
  },
  {
   "property": "C40",
   "status": "proved",
   "theorems": [
    "Dusk.Bls.C40_unsafe",
    "Dusk.Bls.C40_safe",
    "Dusk.Bls.C40_compressed",
    "Dusk.Bls.C40_collision"
   ],
   "note": ""
  },
  {
   "property": "C41",
   "status": "proved",
   "theorems": [
    "Dusk.Bls.C41_lengths",
    "Dusk.Bls.C41_surplus_unsafe",
    "Dusk.Bls.C41_surplus_compressed",
    "Dusk.Bls.C41_missing_unsafe",
    "Dusk.Bls.C41_missing_compressed",
    "Dusk.Bls.C41_empty"
   ],
   "note": ""
  },
  {
   "property": "C42",
   "status": "proved",
   "theorems": [
    "Dusk.Bls.C42_publicKey",
    "Dusk.Bls.C42_apk",
    "Dusk.Bls.C42_signature",
    "Dusk.Bls.C42_unsafeSignature",
    "Dusk.Bls.C42_injective",
    "Dusk.Bls.C42_accepts_keys",
    "Dusk.Bls.C42_accepts_signatures",
    "Dusk.Bls.C42_aggregateBytes"
   ],
   "note": ""
  },
  {
   "property": "C43",
   "status": "proved",
   "theorems": [
    "Dusk.Bls.C43_signature",
    "Dusk.Bls.C43_apk",
    "Dusk.Bls.C43_publicKey_violated",
    "Dusk.Bls.C43_text_violated"
   ],
   "note": "the code violates the expected property; the theorems prove the violation in general and the part that holds"
  },
  {
   "property": "C44",
   "status": "proved",
   "theorems": [
    "Dusk.Bls.C44_accepts",
    "Dusk.Bls.C44_text",
    "Dusk.Bls.C44_bytes",
    "Dusk.Bls.C44_line_breaks"
   ],
   "note": ""
  },
  {
   "property": "C45",
   "status": "proved",
   "theorems": [
    "Dusk.Bls.C45_history",
    "Dusk.Bls.C45_frame",
    "Dusk.Bls.C45_apk_receiver",
    "Dusk.Bls.C45_sig_receiver",
    "Dusk.Bls.C45_apk_copy",
    "Dusk.Bls.C45_sig_copy",
    "Dusk.Bls.C45_sig_independent",
    "Dusk.Bls.C45_separate",
    "Dusk.Bls.C45_apk_independent",
    "Dusk.Bls.C45_literal_shares"
   ],
   "note": ""
  },
  {
   "property": "C46",
   "status": "proved",
   "theorems": [
    "Dusk.Bls.C46_aggregateApk",
    "Dusk.Bls.C46_verify_nil"
   ],
   "note": ""
  },
  {
   "property": "C47",
   "status": "proved",
   "theorems": [
    "Dusk.Vec.C47_add",
    "Dusk.Vec.C47_sub",
    "Dusk.Vec.C47_hadamard",
    "Dusk.Vec.C47_innerProduct",
    "Dusk.Vec.C47_exp",
    "Dusk.Vec.C47_scalar_ops",
    "Dusk.Vec.C47_scalar_ops_length",
    "Dusk.Vec.C47_fromScalar",
    "Dusk.Vec.C47_split"
   ],
   "note": ""
  },
  {
   "property": "C48",
   "status": "proved",
   "theorems": [
    "Dusk.Vec.C48_powers",
    "Dusk.Vec.C48_sum",
    "Dusk.Vec.C48_zero_violated",
    "Dusk.Vec.C48_agree"
   ],
   "note": "the code violates the expected property; the theorems prove the violation in general and the part that holds"
  },
  {
   "property": "C49",
   "status": "proved",
   "theorems": [
    "Dusk.C49_chain",
    "Dusk.C49_split"
   ],
   "note": ""
  },
  {
   "property": "C50",
   "status": "proved",
   "theorems": [
    "Dusk.C50_open",
    "Dusk.C50_homomorphic",
    "Dusk.C50_binding",
    "Dusk.C50_blinding_unique",
    "Dusk.C50_hiding"
   ],
   "note": ""
  },
  {
   "property": "C51",
   "status": "proved",
   "theorems": [
    "Dusk.C51_commit",
    "Dusk.C51_empty",
    "Dusk.C51_seeds_distinct",
    "Dusk.C51_seeds_repeat_violated",
    "Dusk.C51_collision_violated"
   ],
   "note": "the code violates the expected property; the theorems prove the violation in general and the part that holds"
  },
  {
   "property": "C52",
   "status": "proved",
   "theorems": [
    "Dusk.C52_cache",
    "Dusk.C52_no_domain_separation"
   ],
   "note": ""
  },
  {
   "property": "C53",
   "status": "proved",
   "theorems": [
    "Dusk.IP.C53_completeness"
   ],
   "note": ""
  },
  {
   "property": "C54",
   "status": "proved",
   "theorems": [
    "Dusk.IP.C54_scalars",
    "Dusk.IP.C54_reverse",
    "Dusk.IP.C54_mismatch",
    "Dusk.IP.C54_overflow"
   ],
   "note": ""
  },
  {
   "property": "C55",
   "status": "proved",
   "theorems": [
    "Dusk.IP.C55_lengths",
    "Dusk.IP.C55_not_power",
    "Dusk.IP.C55_empty_never",
    "Dusk.IP.C55_empty_panics",
    "Dusk.IP.C55_single"
   ],
   "note": ""
  },
  {
   "property": "C56",
   "status": "proved",
   "theorems": [
    "Dusk.IP.C56_diffNextPow2",
    "Dusk.IP.C56_isPower2"
   ],
   "note": ""
  },
  {
   "property": "C57",
   "status": "proved",
   "theorems": [
    "Dusk.IP.C57_encode",
    "Dusk.IP.C57_decode",
    "Dusk.IP.C57_roundtrip",
    "Dusk.IP.C57_truncation_violated"
   ],
   "note": ""
  },
  {
   "property": "C58",
   "status": "proved",
   "theorems": [
    "Dusk.IP.C58_extraction",
    "Dusk.IP.C58_soundness",
    "Dusk.IP.C58_satisfiable"
   ],
   "note": ""
  },
  {
   "property": "C59",
   "status": "proved",
   "theorems": [
    "Dusk.RP.C59_bits",
    "Dusk.RP.C59_value",
    "Dusk.RP.C59_debug",
    "Dusk.RP.C59_debug_any",
    "Dusk.RP.C59_debug_short"
   ],
   "note": ""
  },
  {
   "property": "C60",
   "status": "proved",
   "theorems": [
    "Dusk.RP.C60_completeness",
    "Dusk.RP.C60_nonzero_hash"
   ],
   "note": ""
  },
  {
   "property": "C61",
   "status": "proved",
   "theorems": [
    "Dusk.RP.C61_returns",
    "Dusk.RP.C61_out_of_range",
    "Dusk.RP.C61_single",
    "Dusk.RP.C61_few_challenges"
   ],
   "note": ""
  },
  {
   "property": "C62",
   "status": "proved",
   "theorems": [
    "Dusk.RP.C62_state",
    "Dusk.RP.C62_violated",
    "Dusk.RP.C62_fresh_violated"
   ],
   "note": "the code violates the expected property; the theorems prove the violation in general and the part that holds"
  },
  {
   "property": "C63",
   "status": "proved",
   "theorems": [
    "Dusk.RP.C63_equation",
    "Dusk.RP.C63_coin"
   ],
   "note": ""
  },
  {
   "property": "C64",
   "status": "proved",
   "theorems": [
    "Dusk.RP.C64_violated"
   ],
   "note": "the code violates the expected property; the theorems prove the violation in general and the part that holds"
  },
  {
   "property": "C65",
   "status": "proved",
   "theorems": [
    "Dusk.RP.C65_checks",
    "Dusk.RP.C65_silent_violated",
    "Dusk.RP.C65_debug_agrees",
    "Dusk.RP.C65_debug_violated"
   ],
   "note": "the code violates the expected property; the theorems prove the violation in general and the part that holds"
  },
  {
   "property": "C66",
   "status": "proved",
   "theorems": [
    "Dusk.RP.C66_encode",
    "Dusk.RP.C66_roundtrip",
    "Dusk.RP.C66_verdict",
    "Dusk.RP.C66_transmit",
    "Dusk.RP.C66_nil",
    "Dusk.RP.C66_noPanic",
    "Dusk.RP.C66_chunkFree",
    "Dusk.RP.C66_short"
   ],
   "note": ""
  },
  {
   "property": "C67",
   "status": "proved",
   "theorems": [
    "Dusk.IP.C67_innerproduct",
    "Dusk.IP.C67_innerproduct_violated",
    "Dusk.IP.C67_innerproduct_panics_violated",
    "Dusk.IP.C67_innerproduct_outcome",
    "Dusk.RP.C67_equal_lengths",
    "Dusk.RP.C67_different_lengths",
    "Dusk.RP.C67_ip_violated",
    "Dusk.RP.C67_flag_panic_violated",
    "Dusk.RP.C67_flag_violated",
    "Dusk.RP.C67_flag_outcome"
   ],
   "note": "the code violates the expected property; the theorems prove the violation in general and the part that holds"
  },
  {
   "property": "C68",
   "status": "proved",
   "theorems": [
    "Dusk.RP.C68_empty",
    "Dusk.RP.C68_many",
    "Dusk.RP.C68_prove",
    "Dusk.RP.C68_no_panic",
    "Dusk.RP.C68_commitments"
   ],
   "note": ""
  },
  {
   "property": "C69",
   "status": "proved",
   "theorems": [
    "Dusk.RP.C69_extraction",
    "Dusk.RP.C69_soundness",
    "Dusk.RP.C69_verify",
    "Dusk.RP.C69_satisfiable"
   ],
   "note": ""
  },
  {
   "property": "C70",
   "status": "proved",
   "theorems": [
    "Dusk.RP.C70_pad_violated",
    "Dusk.RP.C70_lost_update_violated",
    "Dusk.RP.C70_alone",
    "Dusk.RP.C70_uniform",
    "Dusk.RP.C70_mixed_reads",
    "Dusk.RP.C70_violated"
   ],
   "note": "the code violates the expected property; the theorems prove the violation in general and the part that holds"
  },
  {
   "property": "C71",
   "status": "proved",
   "theorems": [
    "Dusk.C71_commitment",
    "Dusk.C71_commitments",
    "Dusk.C71_mlsag",
    "Dusk.C71_innerproduct_violated",
    "Dusk.C71_rangeproof"
   ],
   "note": "the code violates the expected property; the theorems prove the violation in general and the part that holds"
  },
  {
   "property": "C72",
   "status": "proved",
   "theorems": [
    "Dusk.C72_equality",
    "Dusk.C72_decoded_violated"
   ],
   "note": "the code violates the expected property; the theorems prove the violation in general and the part that holds"
  },
  {
   "property": "C73",
   "status": "proved",
   "theorems": [
    "Dusk.IP.C73_scalars",
    "Dusk.IP.C73_any_claim",
    "Dusk.IP.C73_binding_violated"
   ],
   "note": "the code violates the expected property; the theorems prove the violation in general and the part that holds"
  },
  {
   "property": "C74",
   "status": "proved",
   "theorems": [
    "Dusk.IP.C74_shapes",
    "Dusk.IP.C74_boundary_violated"
   ],
   "note": "the code violates the expected property; the theorems prove the violation in general and the part that holds"
  },
  {
   "property": "C75",
   "status": "proved",
   "theorems": [
    "Dusk.RP.C75_coins",
    "Dusk.RP.C75_uniform",
    "Dusk.RP.C75_adaptive",
    "Dusk.RP.C75_simulated",
    "Dusk.RP.C75_witness_indistinguishable",
    "Dusk.RP.C75_verify_published"
   ],
   "note": ""
  },
  {
   "property": "C76",
   "status": "proved",
   "theorems": [
    "Dusk.Mlsag.C76_surplus",
    "Dusk.Mlsag.C76_malleable_violated",
    "Dusk.Mlsag.C76_wire_violated"
   ],
   "note": "the code violates the expected property; the theorems prove the violation in general and the part that holds"
  },
  {
   "property": "C77",
   "status": "proved",
   "theorems": [
    "Dusk.Mlsag.C77_shift",
    "Dusk.Mlsag.C77_binding_violated",
    "Dusk.Mlsag.C77_skip_violated"
   ],
   "note": "the code violates the expected property; the theorems prove the violation in general and the part that holds"
  },
  {
   "property": "C78",
   "status": "proved",
   "theorems": [
    "Dusk.Mlsag.C78_shapes_violated"
   ],
   "note": "the code violates the expected property; the theorems prove the violation in general and the part that holds"
  },
  {
   "property": "C79",
   "status": "proved",
   "theorems": [
    "Dusk.Mlsag.C79_bijective"
   ],
   "note": ""
  },
  {
   "property": "C80",
   "status": "proved",
   "theorems": [
    "Dusk.Mlsag.C80_position_violated",
    "Dusk.Mlsag.C80_same_second_violated"
   ],
   "note": "the code violates the expected property; the theorems prove the violation in general and the part that holds"
  },
  {
   "property": "C81",
   "status": "proved",
   "theorems": [
    "Dusk.MlsagMem.C81_sub",
    "Dusk.MlsagMem.C81_distinct",
    "Dusk.MlsagMem.C81_caller_violated",
    "Dusk.MlsagMem.C81_twice_violated",
    "Dusk.MlsagMem.C81_signature_violated"
   ],
   "note": "the code violates the expected property; the theorems prove the violation in general and the part that holds"
  },
  {
   "property": "C82",
   "status": "proved",
   "theorems": [
    "Dusk.MlsagMem.C82_decoys",
    "Dusk.MlsagMem.C82_refines",
    "Dusk.MlsagMem.C82_message",
    "Dusk.MlsagMem.C82_full",
    "Dusk.MlsagMem.C82_second_violated",
    "Dusk.MlsagMem.C82_room",
    "Dusk.MlsagMem.C82_panic_violated"
   ],
   "note": "the code violates the expected property; the theorems prove the violation in general and the part that holds"
  },
  {
   "property": "C83",
   "status": "proved",
   "theorems": [
    "Dusk.Mlsag.C83_outcome",
    "Dusk.Mlsag.C83_ok_iff"
   ],
   "note": ""
  },
  {
   "property": "C84",
   "status": "proved",
   "theorems": [
    "Dusk.Mlsag.C84_panic",
    "Dusk.Mlsag.C84_outcome"
   ],
   "note": ""
  },
  {
   "property": "C85",
   "status": "proved",
   "theorems": [
    "Dusk.Bls.C85_hex",
    "Dusk.Bls.C85_hex_accepts",
    "Dusk.Bls.C85_g1",
    "Dusk.Bls.C85_g2",
    "Dusk.Bls.C85_init"
   ],
   "note": ""
  },
  {
   "property": "C86",
   "status": "proved",
   "theorems": [
    "Dusk.RP.C86_shapes",
    "Dusk.RP.C86_panic",
    "Dusk.RP.C86_remote_violated"
   ],
   "note": "the code violates the expected property; the theorems prove the violation in general and the part that holds"
  },
  {
   "property": "C87",
   "status": "proved",
   "theorems": [
    "Dusk.Mlsag.C87_mlsag",
    "Dusk.Mlsag.C87_mlsag_model",
    "Dusk.Mlsag.C87_mlsag_alloc_violated",
    "Dusk.Mlsag.C87_mlsag_alloc_failed_violated",
    "Dusk.Mlsag.C87_mlsag_bound",
    "Dusk.Mlsag.C87_mlsag_mixture_violated",
    "Dusk.RP.C87_innerproduct",
    "Dusk.RP.C87_rangeproof",
    "Dusk.RP.C87_rangeproof_bare",
    "Dusk.RP.C87_rangeproof_alloc_violated",
    "Dusk.RP.C87_rangeproof_model",
    "Dusk.RP.C87_rangeproof_mixture_violated"
   ],
   "note": "the code violates the expected property; the theorems prove the violation in general and the part that holds"
  },
  {
   "property": "C88",
   "status": "proved",
   "theorems": [
    "Dusk.Merkle.C88_verifyTree",
    "Dusk.Merkle.C88_verifyTree_ok",
    "Dusk.Merkle.C88_newTree",
    "Dusk.Merkle.C88_rebuild"
   ],
   "note": ""
  },
  {
   "property": "C89",
   "status": "proved",
   "theorems": [
    "Dusk.Mlsag.C89_pubkeys",
    "Dusk.Mlsag.C89_append",
    "Dusk.Mlsag.C89_isNumInList",
    "Dusk.Mlsag.C89_readerToPoint",
    "Dusk.Mlsag.C89_responses_decode",
    "Dusk.Mlsag.C89_pubkeys_decode",
    "Dusk.Mlsag.C89_reuse_violated",
    "Dusk.Mlsag.C89_handed_out",
    "Dusk.Mlsag.C89_lenMembers"
   ],
   "note": ""
  },
  {
   "property": "C90",
   "status": "proved",
   "theorems": [
    "Dusk.RPMem.C90_refines",
    "Dusk.RPMem.C90_memory",
    "Dusk.RPMem.C90_unchanged_iff",
    "Dusk.RPMem.C90_overwritten_pos",
    "Dusk.RPMem.C90_other_slice_violated"
   ],
   "note": "the code violates the expected property; the theorems prove the violation in general and the part that holds"
  },
  {
   "property": "C91",
   "status": "proved",
   "theorems": [
    "Dusk.PedMem.C91_commit",
    "Dusk.PedMem.C91_memory",
    "Dusk.PedMem.C91_chain",
    "Dusk.PedMem.C91_isolated",
    "Dusk.PedMem.C91_seed_kept_violated",
    "Dusk.PedMem.C91_cross_violated"
   ],
   "note": "the code violates the expected property; the theorems prove the violation in general and the part that holds"
  },
  {
   "property": "C92",
   "status": "proved",
   "theorems": [
    "Dusk.HashMem.C92_append",
    "Dusk.HashMem.C92_private",
    "Dusk.HashMem.C92_copy_violated",
    "Dusk.HashMem.C92_result_violated"
   ],
   "note": "the code violates the expected property; the theorems prove the violation in general and the part that holds"
  },
  {
   "property": "C93",
   "status": "proved",
   "theorems": [
    "Dusk.VecMem.C93_binary",
    "Dusk.VecMem.C93_unary",
    "Dusk.VecMem.C93_new",
    "Dusk.VecMem.C93_alias_violated",
    "Dusk.VecMem.C93_split",
    "Dusk.VecMem.C93_split_violated"
   ],
   "note": "the code violates the expected property; the theorems prove the violation in general and the part that holds"
  },
  {
   "property": "C94",
   "status": "proved",
   "theorems": [
    "Dusk.IPMem.C94_result",
    "Dusk.IPMem.C94_memory",
    "Dusk.IPMem.C94_overlap"
   ],
   "note": ""
  },
  {
   "property": "C95",
   "status": "proved",
   "theorems": [
    "Dusk.Blsag.C95_special_soundness",
    "Dusk.Blsag.C95_closed",
    "Dusk.Blsag.C95_order",
    "Dusk.Blsag.C95_extract"
   ],
   "note": ""
  },
  {
   "property": "C96",
   "status": "proved",
   "theorems": [
    "Dusk.Blsag.C96_forgery_violated",
    "Dusk.Blsag.C96_honest_ring_violated"
   ],
   "note": "the code violates the expected property; the theorems prove the violation in general and the part that holds"
  },
  {
   "property": "C97",
   "status": "proved",
   "theorems": [
    "Dusk.Blsag.C97_blsag_violated",
    "Dusk.Mlsag.C97_mlsag_violated"
   ],
   "note": "the code violates the expected property; the theorems prove the violation in general and the part that holds"
  },
  {
   "property": "C98",
   "status": "proved",
   "theorems": [
    "Dusk.RP.C98_reads",
    "Dusk.RP.C98_alone",
    "Dusk.RP.C98_verifiers",
    "Dusk.RP.C98_uniform",
    "Dusk.RP.C98_interleaved",
    "Dusk.RP.C98_error_violated",
    "Dusk.RP.C98_panic_violated"
   ],
   "note": "the code violates the expected property; the theorems prove the violation in general and the part that holds"
  },
  {
   "property": "C99",
   "status": "proved",
   "theorems": [
    "Dusk.RP.C99_forgery_violated"
   ],
   "note": "the code violates the expected property; the theorems prove the violation in general and the part that holds"
  },
  {
   "property": "C100",
   "status": "proved",
   "theorems": [
    "Dusk.IP.C100_shapes",
    "Dusk.IP.C100_single",
    "Dusk.IP.C100_empty"
   ],
   "note": "the code violates the expected property; the theorems prove the violation in general and the part that holds"
  },
  {
   "property": "C101",
   "status": "proved",
   "theorems": [
    "Dusk.RP.C101_disagree",
    "Dusk.RP.C101_agree",
    "Dusk.RP.C101_returned",
    "Dusk.RP.C101_interleaved",
    "Dusk.RP.C101_panic_violated"
   ],
   "note": "the code violates the expected property; the theorems prove the violation in general and the part that holds"
  },
  {
   "property": "C102",
   "status": "proved",
   "theorems": [
    "Dusk.RP.C102_verify_alone",
    "Dusk.RP.C102_prove_alone",
    "Dusk.RP.C102_concurrent"
   ],
   "note": ""
  },
  {
   "property": "C103",
   "status": "proved",
   "theorems": [
    "Dusk.RP.C103_reachable",
    "Dusk.RP.C103_sum",
    "Dusk.RP.C103_sum_fail",
    "Dusk.RP.C103_blinding"
   ],
   "note": "the code violates the expected property; the theorems prove the violation in general and the part that holds"
  },
  {
   "property": "C104",
   "status": "proved",
   "theorems": [
    "Dusk.RP.C104_returned",
    "Dusk.RP.C104_verify",
    "Dusk.RP.C104_reached",
    "Dusk.RP.C104_interleaved",
    "Dusk.RP.C104_rejected_violated"
   ],
   "note": "the code violates the expected property; the theorems prove the violation in general and the part that holds"
  },
  {
   "property": "C105",
   "status": "proved",
   "theorems": [
    "Dusk.RP.C105_unblinded_violated"
   ],
   "note": "the code violates the expected property; the theorems prove the violation in general and the part that holds"
  },
  {
   "property": "C106",
   "status": "proved",
   "theorems": [
    "Dusk.RP.C106_accepts",
    "Dusk.RP.C106_panics",
    "Dusk.RP.C106_refuses_violated",
    "Dusk.RP.C106_reached",
    "Dusk.RP.C106_interleaved"
   ],
   "note": "the code violates the expected property; the theorems prove the violation in general and the part that holds"
  },
  {
   "property": "C107",
   "status": "proved",
   "theorems": [
    "Dusk.Mlsag.C107_exact",
    "Dusk.Mlsag.C107_signers",
    "Dusk.Mlsag.C107_count"
   ],
   "note": ""
  },
  {
   "property": "C108",
   "status": "proved",
   "theorems": [
    "Dusk.Blsag.C108_exact",
    "Dusk.Blsag.C108_count",
    "Dusk.Blsag.C108_first_violated"
   ],
   "note": "the code violates the expected property; the theorems prove the violation in general and the part that holds"
  },
  {
   "property": "C109",
   "status": "proved",
   "theorems": [
    "Dusk.Mlsag.C109_image_violated"
   ],
   "note": "the code violates the expected property; the theorems prove the violation in general and the part that holds"
  },
  {
   "property": "C110",
   "status": "proved",
   "theorems": [
    "Dusk.Mlsag.C110_linkable"
   ],
   "note": ""
  },
  {
   "property": "C111",
   "status": "proved",
   "theorems": [
    "Dusk.Blsag.C111_image_violated",
    "Dusk.Blsag.C111_linkable"
   ],
   "note": "the code violates the expected property; the theorems prove the violation in general and the part that holds"
  },
  {
   "property": "C112",
   "status": "proved",
   "theorems": [
    "Dusk.Mlsag.C112_unforgeable"
   ],
   "note": ""
  },
  {
   "property": "C113",
   "status": "proved",
   "theorems": [
    "Dusk.Blsag.C113_unforgeable"
   ],
   "note": ""
  },
  {
   "property": "C114",
   "status": "proved",
   "theorems": [
    "Dusk.RP.C114_relation",
    "Dusk.RP.C114_opening",
    "Dusk.RP.C114_soundness"
   ],
   "note": ""
  },
  {
   "property": "C115",
   "status": "proved",
   "theorems": [
    "Dusk.Mlsag.C115_simulated",
    "Dusk.Mlsag.C115_discrete_logarithms",
    "Dusk.Mlsag.C115_images_from_keys"
   ],
   "note": ""
  },
  {
   "property": "C116",
   "status": "proved",
   "theorems": [
    "Dusk.Mlsag.C116_image_of_member",
    "Dusk.Mlsag.C116_exculpable"
   ],
   "note": ""
  },
  {
   "property": "C117",
   "status": "proved",
   "theorems": [
    "Dusk.Mlsag.C117_linkable"
   ],
   "note": ""
  },
  {
   "property": "C118",
   "status": "proved",
   "theorems": [
    "Dusk.Mlsag.C118_column",
    "Dusk.Mlsag.C118_same_value",
    "Dusk.Mlsag.C118_any_value_violated"
   ],
   "note": "the code violates the expected property; the theorems prove the violation in general and the part that holds"
  },
  {
   "property": "C119",
   "status": "proved",
   "theorems": [
    "Dusk.Mlsag.C119_responses",
    "Dusk.Mlsag.C119_pubkeys",
    "Dusk.Mlsag.C119_mlsag",
    "Dusk.RP.C119_commitment",
    "Dusk.RP.C119_rangeproof",
    "Dusk.RP.C119_stale_blinding_violated"
   ],
   "note": "the code violates the expected property; the theorems prove the violation in general and the part that holds"
  },
  {
   "property": "C120",
   "status": "proved",
   "theorems": [
    "Dusk.Blsag.C120_image_of_member",
    "Dusk.Blsag.C120_exculpable"
   ],
   "note": ""
  },
  {
   "property": "C121",
   "status": "proved",
   "theorems": [
    "Dusk.Mlsag.C121_mlsag",
    "Dusk.Mlsag.C121_mlsag_message",
    "Dusk.Mlsag.C121_longer_message_violated",
    "Dusk.Blsag.C121_blsag",
    "Dusk.Bls.C121_bls_message",
    "Dusk.Bls.C121_bls_key"
   ],
   "note": "the code violates the expected property; the theorems prove the violation in general and the part that holds"
  },
  {
   "property": "C122",
   "status": "proved",
   "theorems": [
    "Dusk.RP.C122_delta",
    "Dusk.RP.C122_delta_one",
    "Dusk.RP.C122_t0",
    "Dusk.Mlsag.C122_bad_message",
    "Dusk.Blsag.C122_wrong_message",
    "Dusk.Bls.C122_sign_verify",
    "Dusk.Hash.C122_checksum_violated"
   ],
   "note": "the code violates the expected property; the theorems prove the violation in general and the part that holds"
  },
  {
   "property": "C123",
   "status": "proved",
   "theorems": [
    "Dusk.RP.C123_same",
    "Dusk.RP.C123_nil",
    "Dusk.RP.C123_wrong_rounds",
    "Dusk.RP.C123_right_rounds",
    "Dusk.RP.C123_exponential_violated",
    "Dusk.RP.C123_failed_prove_violated"
   ],
   "note": "the code violates the expected property; the theorems prove the violation in general and the part that holds"
  },
  {
   "property": "C124",
   "status": "proved",
   "theorems": [
    "Dusk.MerkleMem.C124_concurrent",
    "Dusk.MerkleMem.C124_alone",
    "Dusk.MerkleMem.C124_finish",
    "Dusk.MerkleMem.C124_same",
    "Dusk.MerkleMem.C124_good_tree",
    "Dusk.MerkleMem.C124_verify_writes_violated",
    "Dusk.MerkleMem.C124_content_writes_violated",
    "Dusk.MerkleMem.C124_fresh_rejected_violated",
    "Dusk.MerkleMem.C124_fresh_false_violated",
    "Dusk.MerkleMem.C124_race_violated",
    "Dusk.MerkleMem.C124_verify_race_violated"
   ],
   "note": "the code violates the expected property; the theorems prove the violation in general and the part that holds"
  },
  {
   "property": "C125",
   "status": "proved",
   "theorems": [
    "Dusk.PedConc.C125_alone",
    "Dusk.PedConc.C125_shared",
    "Dusk.PedConc.C125_precomputed",
    "Dusk.PedConc.C125_repeated_violated",
    "Dusk.PedConc.C125_not_binding_violated",
    "Dusk.PedConc.C125_commit_race_violated",
    "Dusk.PedConc.C125_huge_violated"
   ],
   "note": "the code violates the expected property; the theorems prove the violation in general and the part that holds"
  },
  {
   "property": "C126",
   "status": "proved",
   "theorems": [
    "Dusk.PointOracle.C126_dlog",
    "Dusk.PointOracle.C126_relation",
    "Dusk.PointOracle.C126_uniform",
    "Dusk.PointOracle.C126_scalar_binding",
    "Dusk.PointOracle.C126_vector_binding",
    "Dusk.PointOracle.C126_soundness"
   ],
   "note": ""
  },
  {
   "property": "C127",
   "status": "proved",
   "theorems": [
    "Dusk.Mlsag.C127_invented",
    "Dusk.Mlsag.C127_two_worlds",
    "Dusk.Mlsag.C127_random_images",
    "Dusk.Mlsag.C127_encoding",
    "Dusk.Mlsag.C127_marked_violated"
   ],
   "note": ""
  },
  {
   "property": "C128",
   "status": "proved",
   "theorems": [
    "Dusk.Mlsag.C128_mlsag_known_violated",
    "Dusk.Mlsag.C128_mlsag_repeated_violated",
    "Dusk.Blsag.C128_blsag_known_violated",
    "Dusk.Blsag.C128_blsag_repeated_violated",
    "Dusk.RP.C128_range_violated",
    "Dusk.RP.C128_range_value_violated",
    "Dusk.RP.C128_commitment_violated"
   ],
   "note": "the code violates the expected property; the theorems prove the violation in general and the part that holds"
  },
  {
   "property": "C129",
   "status": "proved",
   "theorems": [
    "Dusk.Mlsag.C129_ddh"
   ],
   "note": ""
  },
  {
   "property": "C130",
   "status": "proved",
   "theorems": [
    "Dusk.Merkle.C130_counted",
    "Dusk.Merkle.C130_newTree",
    "Dusk.Merkle.C130_newTree_fail",
    "Dusk.Merkle.C130_verifyTree",
    "Dusk.Merkle.C130_verifyTree_violated",
    "Dusk.Merkle.C130_verifyNode_violated",
    "Dusk.Merkle.C130_verifyContent_found",
    "Dusk.Merkle.C130_verifyContent_violated",
    "Dusk.Merkle.C130_verifyNode_any"
   ],
   "note": "the code violates the expected property; the theorems prove the violation in general and the part that holds"
  },
  {
   "property": "C131",
   "status": "proved",
   "theorems": [
    "Dusk.RP.C131_relations",
    "Dusk.RP.C131_determined",
    "Dusk.RP.C131_dlog",
    "Dusk.RP.C131_sharp"
   ],
   "note": ""
  },
  {
   "property": "C132",
   "status": "proved",
   "theorems": [
    "Dusk.BlsConc.C132_anytime",
    "Dusk.BlsConc.C132_locked",
    "Dusk.BlsConc.C132_exact",
    "Dusk.BlsConc.C132_alone",
    "Dusk.BlsConc.C132_violated"
   ],
   "note": "the code violates the expected property; the theorems prove the violation in general and the part that holds"
  },
  {
   "property": "C133",
   "status": "proved",
   "theorems": [
    "Dusk.BnCurve.C133_primes",
    "Dusk.BnCurve.C133_g1",
    "Dusk.BnCurve.C133_curve",
    "Dusk.BnCurve.C133_g2",
    "Dusk.BnCurve.C133_twist",
    "Dusk.BnCurve.C133_instance"
   ],
   "note": ""
  },
  {
   "property": "C134",
   "status": "proved",
   "theorems": [
    "Dusk.Mlsag.C134_prove",
    "Dusk.Mlsag.C134_signer",
    "Dusk.Mlsag.C134_position_violated",
    "Dusk.Mlsag.C134_dualKey",
    "Dusk.Mlsag.C134_verify",
    "Dusk.Blsag.C134_sign",
    "Dusk.Blsag.C134_sign_independent",
    "Dusk.Blsag.C134_verify"
   ],
   "note": "the code violates the expected property; the theorems prove the violation in general and the part that holds"
  },
  {
   "property": "C135",
   "status": "proved",
   "theorems": [
    "Dusk.RP.C135_prove",
    "Dusk.RP.C135_independent",
    "Dusk.RP.C135_branches_violated",
    "Dusk.RP.C135_values_violated",
    "Dusk.RP.C135_cost",
    "Dusk.RP.C135_vector"
   ],
   "note": "the code violates the expected property; the theorems prove the violation in general and the part that holds"
  },
  {
   "property": "C136",
   "status": "proved",
   "theorems": [
    "Dusk.MlsagConc.C136_alone",
    "Dusk.MlsagConc.C136_decoys_locked",
    "Dusk.MlsagConc.C136_decoys_violated",
    "Dusk.MlsagConc.C136_message_violated",
    "Dusk.MlsagConc.C136_ring_violated",
    "Dusk.MlsagConc.C136_zero_key_violated",
    "Dusk.MlsagConc.C136_panic_violated",
    "Dusk.MlsagConc.C136_subtract_violated"
   ],
   "note": "the code violates the expected property; the theorems prove the violation in general and the part that holds"
  },
  {
   "property": "C137",
   "status": "proved",
   "theorems": [
    "Dusk.Bls.C137_exact",
    "Dusk.Bls.C137_sum_violated",
    "Dusk.Bls.C137_secret",
    "Dusk.Bls.C137_bound",
    "Dusk.Bls.C137_exists_violated",
    "Dusk.Bls.C137_table"
   ],
   "note": "the code violates the expected property; the theorems prove the violation in general and the part that holds"
  },
  {
   "property": "C138",
   "status": "proved",
   "theorems": [
    "Dusk.MerkleShare.C138_alone_using",
    "Dusk.MerkleShare.C138_alone_verify",
    "Dusk.MerkleShare.C138_alone_content",
    "Dusk.MerkleShare.C138_alone_rebuild",
    "Dusk.MerkleShare.C138_answers",
    "Dusk.MerkleShare.C138_fields",
    "Dusk.MerkleShare.C138_verify_violated",
    "Dusk.MerkleShare.C138_undone_violated",
    "Dusk.MerkleShare.C138_mixed_violated"
   ],
   "note": "the code violates the expected property; the theorems prove the violation in general and the part that holds"
  },
  {
   "property": "C139",
   "status": "proved",
   "theorems": [
    "Dusk.Convert.C139_same_violated",
    "Dusk.Convert.C139_single_violated",
    "Dusk.Convert.C139_replay_violated",
    "Dusk.Convert.C139_decode_violated",
    "Dusk.Convert.C139_sign_violated",
    "Dusk.Convert.C139_linked",
    "Dusk.Convert.C139_prove_violated"
   ],
   "note": "the code violates the expected property; the theorems prove the violation in general and the part that holds"
  },
  {
   "property": "C140",
   "status": "proved",
   "theorems": [
    "Dusk.Mlsag.C140_signature_size",
    "Dusk.Mlsag.C140_prove_size",
    "Dusk.Mlsag.C140_signature_stream",
    "Dusk.C140_commitments_size",
    "Dusk.C140_commitments_stream",
    "Dusk.RP.C140_proof_size",
    "Dusk.RP.C140_tail_violated",
    "Dusk.RP.C140_two_proofs_violated"
   ],
   "note": "the code violates the expected property; the theorems prove the violation in general and the part that holds"
  },
  {
   "property": "C141",
   "status": "proved",
   "theorems": [
    "Dusk.Bls.C141_exact",
    "Dusk.Bls.C141_order",
    "Dusk.Bls.C141_one",
    "Dusk.Bls.C141_cancel_violated",
    "Dusk.Bls.C141_multi_exact",
    "Dusk.Bls.C141_multi_cancel_violated"
   ],
   "note": "the code violates the expected property; the theorems prove the violation in general and the part that holds"
  },
  {
   "property": "C142",
   "status": "proved",
   "theorems": [
    "Dusk.Merkle.C142_same_violated",
    "Dusk.Merkle.C142_exact",
    "Dusk.Merkle.C142_distinct",
    "Dusk.Merkle.C142_tree",
    "Dusk.Merkle.C142_tree_distinct"
   ],
   "note": "the code violates the expected property; the theorems prove the violation in general and the part that holds"
  },
  {
   "property": "C143",
   "status": "proved",
   "theorems": [
    "Dusk.Merkle.C143_binding",
    "Dusk.Merkle.C143_length_violated",
    "Dusk.Merkle.C143_repeat_violated",
    "Dusk.Merkle.C143_attackers"
   ],
   "note": "the code violates the expected property; the theorems prove the violation in general and the part that holds"
  },
  {
   "property": "C144",
   "status": "proved",
   "theorems": [
    "Dusk.Hash.Conc.C144_exact_violated",
    "Dusk.Hash.Conc.C144_broken",
    "Dusk.Hash.Conc.C144_both_violated"
   ],
   "note": "the code violates the expected property; the theorems prove the violation in general and the part that holds"
  },
  {
   "property": "C145",
   "status": "proved",
   "theorems": [
    "Dusk.Mlsag.C145_orderings_violated",
    "Dusk.Mlsag.C145_window_violated",
    "Dusk.Blsag.C145_period_violated",
    "Dusk.Blsag.C145_shared_violated",
    "Dusk.Blsag.C145_goroutines",
    "Dusk.Blsag.C145_goroutines_violated",
    "Dusk.C145_draws",
    "Dusk.C145_every_order"
   ],
   "note": "the code violates the expected property; the theorems prove the violation in general and the part that holds"
  },
  {
   "property": "C146",
   "status": "proved",
   "theorems": [
    "Dusk.Mlsag.C146_signature_violated",
    "Dusk.Mlsag.C146_signature_cut_violated",
    "Dusk.IP.C146_innerproduct_violated",
    "Dusk.C146_commitments_violated",
    "Dusk.Pedersen.C146_pedersen_violated"
   ],
   "note": "the code violates the expected property; the theorems prove the violation in general and the part that holds"
  },
  {
   "property": "C147",
   "status": "proved",
   "theorems": [
    "Dusk.IP.C147_innerproduct",
    "Dusk.RP.C147_rangeproof",
    "Dusk.RP.C147_out_of_range",
    "Dusk.RP.C147_error"
   ],
   "note": ""
  },
  {
   "property": "C148",
   "status": "proved",
   "theorems": [
    "Dusk.Bls.C148_same",
    "Dusk.Bls.C148_sign",
    "Dusk.Bls.C148_verify",
    "Dusk.Bls.C148_batch",
    "Dusk.Bls.C148_repeated",
    "Dusk.Bls.C148_empty",
    "Dusk.Bls.C148_short",
    "Dusk.Bls.C148_aggregate",
    "Dusk.Bls.C148_pairings",
    "Dusk.Bls.C148_saving"
   ],
   "note": ""
  },
  {
   "property": "C149",
   "status": "proved",
   "theorems": [
    "Dusk.C149_totals",
    "Dusk.C149_number",
    "Dusk.C149_unchecked_violated",
    "Dusk.RP.C149_proofs"
   ],
   "note": "the code violates the expected property; the theorems prove the violation in general and the part that holds"
  },
  {
   "property": "C150",
   "status": "proved",
   "theorems": [
    "Dusk.Bls.C150_key_violated",
    "Dusk.Bls.C150_only",
    "Dusk.Bls.C150_member_violated",
    "Dusk.Bls.C150_batch_violated",
    "Dusk.Bls.C150_generated",
    "Dusk.Mlsag.C150_ring_violated",
    "Dusk.Mlsag.C150_image"
   ],
   "note": "the code violates the expected property; the theorems prove the violation in general and the part that holds"
  },
  {
   "property": "C151",
   "status": "proved",
   "theorems": [
    "Dusk.Mlsag.C151_balance",
    "Dusk.Mlsag.C151_proofs",
    "Dusk.Mlsag.C151_double",
    "Dusk.Mlsag.C151_honest",
    "Dusk.Mlsag.C151_same_blinding",
    "Dusk.Mlsag.C151_adds_up",
    "Dusk.Mlsag.C151_forked"
   ],
   "note": ""
  },
  {
   "property": "C152",
   "status": "proved",
   "theorems": [
    "Dusk.Vec.C152_outcome",
    "Dusk.Vec.C152_fits",
    "Dusk.Vec.C152_calls",
    "Dusk.Vec.C152_violated",
    "Dusk.Vec.C152_refused"
   ],
   "note": "the code violates the expected property; the theorems prove the violation in general and the part that holds"
  },
  {
   "property": "C153",
   "status": "proved",
   "theorems": [
    "Dusk.C153_seed_violated",
    "Dusk.C153_commitment_violated",
    "Dusk.C153_image_violated",
    "Dusk.C153_meet",
    "Dusk.C153_library",
    "Dusk.C153_image_library",
    "Dusk.C153_query",
    "Dusk.C153_challenge_violated",
    "Dusk.C153_inner_violated"
   ],
   "note": "the code violates the expected property; the theorems prove the violation in general and the part that holds"
  },
  {
   "property": "C154",
   "status": "proved",
   "theorems": [
    "Dusk.Mlsag.C154_received",
    "Dusk.Mlsag.C154_outcome",
    "Dusk.Mlsag.C154_panic_violated",
    "Dusk.Mlsag.C154_alone_violated"
   ],
   "note": "the code violates the expected property; the theorems prove the violation in general and the part that holds"
  },
  {
   "property": "C155",
   "status": "proved",
   "theorems": [
    "Dusk.C155_value",
    "Dusk.C155_zeros_violated",
    "Dusk.C155_binding",
    "Dusk.C155_scalar_violated",
    "Dusk.C155_none_violated"
   ],
   "note": "the code violates the expected property; the theorems prove the violation in general and the part that holds"
  },
  {
   "property": "C156",
   "status": "proved",
   "theorems": [
    "Dusk.Mlsag.C156_keys",
    "Dusk.Mlsag.C156_supply",
    "Dusk.Mlsag.C156_fees",
    "Dusk.Mlsag.C156_spendable",
    "Dusk.Mlsag.C156_minted",
    "Dusk.Mlsag.C156_burnt_violated"
   ],
   "note": "the code violates the expected property; the theorems prove the violation in general and the part that holds"
  },
  {
   "property": "C157",
   "status": "proved",
   "theorems": [
    "Dusk.Mlsag.C157_amounts",
    "Dusk.Mlsag.C157_accepted",
    "Dusk.Mlsag.C157_value_violated"
   ],
   "note": "the code violates the expected property; the theorems prove the violation in general and the part that holds"
  },
  {
   "property": "C158",
   "status": "proved",
   "theorems": [
    "Dusk.Via.C158_proof_agrees",
    "Dusk.Via.C158_proof_nil",
    "Dusk.Via.C158_vectors",
    "Dusk.Via.C158_signature",
    "Dusk.Via.C158_dual_agrees",
    "Dusk.Via.C158_dual_zero",
    "Dusk.Via.C158_dual_nil",
    "Dusk.Via.C158_commit_agrees",
    "Dusk.Via.C158_commit_nil",
    "Dusk.Via.C158_proofs_nil",
    "Dusk.Via.C158_proofs_agree",
    "Dusk.Via.C158_tree_agrees",
    "Dusk.Via.C158_tree_nil",
    "Dusk.Via.C158_sign",
    "Dusk.Via.C158_bls_agrees",
    "Dusk.Via.C158_sig_nil_bytes",
    "Dusk.Via.C158_sig_nil_parse",
    "Dusk.Via.C158_pk_nil",
    "Dusk.Via.C158_bls_nil"
   ],
   "note": "the code violates the expected property; the theorems prove the violation in general and the part that holds"
  },
  {
   "property": "C159",
   "status": "proved",
   "theorems": [
    "Dusk.Mlsag.C159_send",
    "Dusk.Mlsag.C159_receive",
    "Dusk.Mlsag.C159_size",
    "Dusk.Mlsag.C159_verdict",
    "Dusk.Mlsag.C159_arrives",
    "Dusk.Mlsag.C159_inflation_violated"
   ],
   "note": "the code violates the expected property; the theorems prove the violation in general and the part that holds"
  },
  {
   "property": "C160",
   "status": "proved",
   "theorems": [
    "Dusk.RP.C160_debug",
    "Dusk.RP.C160_disagree",
    "Dusk.RP.C160_panic",
    "Dusk.RP.C160_interleaved",
    "Dusk.RP.C160_disturbed_violated"
   ],
   "note": "the code violates the expected property; the theorems prove the violation in general and the part that holds"
  },
  {
   "property": "C161",
   "status": "proved",
   "theorems": [
    "Dusk.Mlsag.C161_read",
    "Dusk.Mlsag.C161_crash",
    "Dusk.Mlsag.C161_careful",
    "Dusk.Mlsag.C161_signature_violated",
    "Dusk.Mlsag.C161_range_violated"
   ],
   "note": "the code violates the expected property; the theorems prove the violation in general and the part that holds"
  },
  {
   "property": "C162",
   "status": "proved",
   "theorems": [
    "Dusk.Mlsag.C162_exact",
    "Dusk.Mlsag.C162_unique",
    "Dusk.Mlsag.C162_shown",
    "Dusk.Mlsag.C162_same",
    "Dusk.Mlsag.C162_chance",
    "Dusk.Mlsag.C162_commitment_violated"
   ],
   "note": "the code violates the expected property; the theorems prove the violation in general and the part that holds"
  },
  {
   "property": "C163",
   "status": "proved",
   "theorems": [
    "Dusk.Mlsag.C163_spends",
    "Dusk.Mlsag.C163_ddh"
   ],
   "note": ""
  },
  {
   "property": "C164",
   "status": "proved",
   "theorems": [
    "Dusk.Mlsag.C164_theft"
   ],
   "note": ""
  },
  {
   "property": "C165",
   "status": "proved",
   "theorems": [
    "Dusk.Mlsag.C165_burn"
   ],
   "note": ""
  },
  {
   "property": "C166",
   "status": "proved",
   "theorems": [
    "Dusk.Mlsag.C166_image"
   ],
   "note": ""
  }
 ]
}