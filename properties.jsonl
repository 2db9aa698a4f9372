{"id": "C01", "title": "One-shot hashes depend on the payload only", "statement": "Sha3256, Sha3512, Blake2b256, Blake2b512 and Xxhash return the digest of exactly the bytes passed, whatever other hash calls were made before; PerformHash on a caller-supplied Hash returns the digest of everything ever written to that Hash followed by the payload, and leaves the Hash holding that concatenation.", "quantifier": "every payload, every sequence of earlier calls, every hash.Hash state", "why_tests_cant": "history independence ranges over all call sequences; a test fixes one", "anchors": ["hash/hash.go: PerformHash, Sha3256, Sha3512, Blake2b256, Blake2b512, Xxhash"]}
{"id": "C02", "title": "CompareChecksum accepts exactly one checksum", "statement": "Checksum(data) is the most significant 32 bits of the 64-bit xxhash of data, and CompareChecksum(data, w) is true if and only if w = Checksum(data); so for every data exactly one uint32 is accepted.", "quantifier": "every byte string and every uint32", "why_tests_cant": "2^32 wants times unbounded data; endianness/slice errors only show on some hashes", "anchors": ["hash/hash.go: Checksum, CompareChecksum"]}
{"id": "C03", "title": "RandEntropy never returns a short or oversized buffer", "statement": "For every n and every behaviour of the entropy source, RandEntropy(n) either returns exactly n bytes, all of them produced by the source, and no error, or returns no bytes and an error.", "quantifier": "every n < 2^32, every (count, error) outcome of the entropy source", "why_tests_cant": "the failing branches depend on the operating system source and cannot be provoked by a unit test", "anchors": ["hash/hash.go: RandEntropy"]}
{"id": "C04", "title": "NewTree terminates and succeeds exactly on non-empty hashable payloads", "statement": "NewTree(pl) always terminates; it returns an error if pl is empty or some payload's CalculateHash fails, and otherwise returns a tree.", "quantifier": "every payload list of every length, every pattern of CalculateHash failures", "why_tests_cant": "recursion over list lengths is unbounded; off-by-one in the level recursion diverges only for particular lengths", "anchors": ["merkletree/merkletree.go: NewTree, create, createIntermediate"]}
{"id": "C05", "title": "MerkleRoot is the textbook Merkle root", "statement": "For every non-empty payload list, MerkleRoot equals the root computed by the textbook definition over the list of payload hashes: duplicate the last element of an odd level, hash the concatenation of adjacent pairs, repeat until one value remains, with at least one pairing round.", "quantifier": "every non-empty payload list with succeeding hashes", "why_tests_cant": "tests have two fixtures of four leaves; the odd-level cases arise at infinitely many sizes", "anchors": ["merkletree/merkletree.go: create, createIntermediate, NewTree"]}
{"id": "C06", "title": "A freshly built or rebuilt tree verifies", "statement": "VerifyTree returns (true, nil) for every tree returned by NewTree and for every tree after any sequence of successful RebuildTree / RebuildTreeUsing calls.", "quantifier": "every payload list, every sequence of rebuilds", "why_tests_cant": "quantifies over all sizes and rebuild histories", "anchors": ["merkletree/merkletree.go: VerifyTree, VerifyNode, NewTree, RebuildTree, RebuildTreeUsing"]}
{"id": "C07", "title": "VerifyContent is exact membership by hash", "statement": "On a tree built from pl, VerifyContent(d) returns (true, nil) if and only if CalculateHash(d) equals CalculateHash of some element of pl, and otherwise (false, nil), provided d's hash succeeds; the walk along Parent pointers always terminates at the root.", "quantifier": "every payload list and every queried payload", "why_tests_cant": "depends on Parent links set during construction for every leaf position in every size of tree", "anchors": ["merkletree/merkletree.go: VerifyContent, equals, CalculateNodeHash, createIntermediate"]}
{"id": "C08", "title": "Merkle roots bind same-length payload lists up to a SHA3 collision", "statement": "If two payload lists of equal length whose hashes all have the digest length produce the same MerkleRoot then either their lists of payload hashes are identical or two distinct byte strings with the same Sha3256 digest can be exhibited.", "quantifier": "every pair of equal-length payload lists", "why_tests_cant": "collision extraction is a statement about all pairs of lists", "anchors": ["merkletree/merkletree.go: createIntermediate", "hash/hash.go: Sha3256"]}
{"id": "C09", "title": "RebuildTree preserves the root; RebuildTreeUsing behaves like NewTree", "statement": "RebuildTree on a built tree succeeds, keeps MerkleRoot and the leaf payload sequence, and is idempotent, even for an odd number of payloads where the duplicated last leaf is now an ordinary leaf; RebuildTreeUsing(pl) yields the tree NewTree(pl) yields; a failing RebuildTreeUsing leaves the tree unchanged.", "quantifier": "every tree, every replacement payload list, every rebuild history", "why_tests_cant": "the duplicate leaf is re-fed as data, the effect ranges over all sizes and repeated rebuilds", "anchors": ["merkletree/merkletree.go: RebuildTree, RebuildTreeUsing"]}
{"id": "C10", "title": "The Merkle root identifies the payload list (violated)", "statement": "Expected: different payload-hash lists give different roots unless SHA3 collides. The code violates it without any collision: an odd list and the list with its last element repeated have the same root, and a list of four payloads has the same root as a list of two payloads whose hashes are the two interior hashes. It does hold for lists of equal length (C08).", "quantifier": "every odd list; every four-element list", "why_tests_cant": "needs an argument over all lists, and a positive test cannot show absence of ambiguity", "anchors": ["merkletree/merkletree.go: create, createIntermediate"]}
{"id": "C11", "title": "Tree shape: leaves in order, every leaf reaches the root in ceil(log2 n) steps", "statement": "After NewTree(pl), the first len(pl) leaves carry pl in order and are not marked duplicate, at most one extra leaf follows it, it is marked duplicate and carries the last payload; following Parent pointers from every leaf reaches Root (whose Parent is nil) after exactly max(1, ceil(log2 len(pl))) steps.", "quantifier": "every non-empty payload list and every leaf index", "why_tests_cant": "pointer structure over all sizes", "anchors": ["merkletree/merkletree.go: create, createIntermediate"]}
{"id": "C12", "title": "What VerifyTree and VerifyContent detect after tampering", "statement": "VerifyTree returns true if and only if the root recomputed from the current leaf payloads equals MerkleRoot, so any payload change that alters the recomputed root is detected while changes to stored interior hashes are not; VerifyContent recomputes every hash on the path and reports a changed stored hash or sibling payload on that path, but never reads MerkleRoot, so a tampered MerkleRoot is not reported.", "quantifier": "every tree shape, every modification of payloads, stored hashes and MerkleRoot", "why_tests_cant": "all tampering positions in all trees", "anchors": ["merkletree/merkletree.go: VerifyTree, VerifyNode, VerifyContent"]}
{"id": "C13", "title": "Building a tree does not write into payload-owned memory (violated for slices with spare capacity)", "statement": "Expected: NewTree only reads the byte slices returned by CalculateHash. Because the code appends to the returned slice, this holds whenever every returned slice has capacity equal to length, and fails otherwise: with spare capacity the append overwrites bytes after the hash in the payload's own backing array.", "quantifier": "every memory layout of the hash slices (offset, length, capacity, sharing)", "why_tests_cant": "depends on capacities and aliasing invisible at the value level", "anchors": ["merkletree/merkletree.go: createIntermediate (append(nl[left].Hash, ...))", "merkletree/merkletree.go: VerifyNode, CalculateNodeHash, VerifyContent"]}
{"id": "C14", "title": "MLSAG completeness", "statement": "For every message, every set of at least one decoy, every vector of at least one secret key of the same size as the decoys, every nonce/response randomness and every shuffle outcome, prove returns a signature that Verify accepts with the returned key images (with and without the last key image skipped, as long as one image remains).", "quantifier": "all messages, ring sizes >= 2, key counts, secret keys, decoy points, random coins and shuffles", "why_tests_cant": "unbounded ring sizes and randomness; wrap-around index arithmetic differs per signer position", "anchors": ["mlsag/mlsag.go: prove, Verify, generateChallenge, calculateKeyImages", "mlsag/proof.go: shuffleSet"]}
{"id": "C15", "title": "The MLSAG ring is exactly decoys plus signer, shuffled", "statement": "After a first successful prove the public-key matrix of the signature is a permutation of the decoys followed by the signer's vector, the secret index points at the signer's vector, which consists of secret*G for each secret, and the only non-decoy entry is the signer's.", "quantifier": "all decoy lists, secrets and shuffle outcomes", "why_tests_cant": "the permutation property ranges over all shuffle streams", "anchors": ["mlsag/proof.go: shuffleSet, addSignerPubKey, AddSecret, AddDecoy"]}
{"id": "C16", "title": "MLSAG key images are deterministic and link signatures", "statement": "The key images returned by prove are x_i*Hp(x_i*G) for each secret x_i (all but the last when skipping), independent of message, decoys and randomness; so two proofs with the same secret at the same position return the same image, and in DualKey two signatures under the same primary key return the same image.", "quantifier": "all pairs of proofs, messages, rings and random coins", "why_tests_cant": "independence from all randomness and ring contents", "anchors": ["mlsag/mlsag.go: calculateKeyImages, CalculateKeyImage", "mlsag/dualkey.go: Prove"]}
{"id": "C17", "title": "MLSAG Verify accepts exactly closing challenge chains", "statement": "For a well-dimensioned signature with at least two ring members, Verify returns true if and only if the chain c_0 = c, c_{i+1} = Hs(msg || r_ij*G + c_i*K_ij ... || r_ij*Hp(K_ij) + c_i*I_j ...) closes with c_n = c; otherwise it returns false with an error. With a single member the step is applied twice.", "quantifier": "all signatures, key images and messages", "why_tests_cant": "loop with modular wrap-around; the claim is about all ring sizes", "anchors": ["mlsag/mlsag.go: Verify, generateChallenge"]}
{"id": "C18", "title": "MLSAG signature encode/decode round trip", "statement": "For every signature with a non-empty rectangular response matrix (and, when keys are included, a key matrix of the same dimensions), Decode of the bytes written by Encode succeeds, consumes exactly those bytes, and yields the same challenge, responses and, when included, key points; with an empty response list Encode succeeds but Decode of its output fails.", "quantifier": "all signatures with dimensions below 2^32, both flag values, any trailing bytes in the stream", "why_tests_cant": "all sizes; the empty corner is a silent asymmetry", "anchors": ["mlsag/mlsag.go: Encode, Decode", "mlsag/responses.go", "mlsag/pubkeys.go"]}
{"id": "C19", "title": "Decoders never panic and reject truncation", "statement": "mlsag Signature.Decode, pedersen DecodeCommitments, innerproduct Decode and rangeproof Decode return a value or an error on every byte stream (no panic), and every strict prefix of the encoding of an MLSAG signature with a non-empty rectangular matrix is rejected with an error.", "quantifier": "all byte streams and all strict prefixes", "why_tests_cant": "all inputs; fuzzing samples only", "anchors": ["mlsag/mlsag.go: Decode", "rangeproof/pedersen/pedersen.go: DecodeCommitments", "rangeproof/innerproduct/innerproduct.go: Decode", "rangeproof/rangeproof.go: Decode"]}
{"id": "C20", "title": "Decoding does not depend on how the reader delivers bytes", "statement": "The outcome of every Decode depends only on the concatenation of the bytes the reader delivers and on how the stream ends, not on the chunk sizes returned by individual Read calls.", "quantifier": "all chunkings of all byte streams (every delivery schedule)", "why_tests_cant": "every schedule of short reads", "anchors": ["mlsag/mlsag.go: Decode", "rangeproof/rangeproof.go: Decode", "rangeproof/innerproduct/innerproduct.go: Decode", "rangeproof/pedersen/pedersen.go: DecodeCommitments"]}
{"id": "C21", "title": "Encoders report every write failure", "statement": "For every point at which the writer fails, Encode (MLSAG signature, commitments, inner product proof, range proof) returns an error and the writer has received a prefix of the full encoding; it returns nil only when the full encoding has been written.", "quantifier": "all failure points (crash points) of the writer, all values", "why_tests_cant": "every crash point for every value", "anchors": ["mlsag/mlsag.go: Encode", "rangeproof/pedersen/pedersen.go: EncodeCommitments", "rangeproof/innerproduct/innerproduct.go: Encode", "rangeproof/rangeproof.go: Encode"]}
{"id": "C22", "title": "mlsag Signature.Equals is an equivalence (violated on response counts)", "statement": "Expected: Equals(a,b) holds iff a and b have the same challenge, responses and (if included) keys. The code compares only the first len(a.r) response vectors: it panics if b has fewer, and returns true if b has extra ones, so it is not symmetric. With equal response counts it is exactly component equality.", "quantifier": "all pairs of signatures", "why_tests_cant": "relational property over all pairs", "anchors": ["mlsag/mlsag.go: Equals", "mlsag/responses.go: Equals", "mlsag/pubkeys.go: Equals"]}
{"id": "C23", "title": "DualKey refuses zero keys and returns exactly one key image", "statement": "DualKey.Prove returns an error, without touching the ring, if either secret is zero; when it succeeds, it returns exactly the key image of the primary key, and the signature verifies with that single image.", "quantifier": "all keys, decoys, messages, random coins", "why_tests_cant": "all inputs and random coins", "anchors": ["mlsag/dualkey.go: Prove, SetPrimaryKey, SetCommToZero"]}
{"id": "C24", "title": "DualKey.Prove can be retried (violated)", "statement": "Expected: a DualKey can be proven repeatedly. After a successful Prove a second Prove always returns an error because secrets accumulate; and a repeated Proof.prove keeps adding the signer's vector to the ring, so the second ring contains the signer's keys twice.", "quantifier": "all keys, rings, random coins, numbers of repetitions", "why_tests_cant": "history property", "anchors": ["mlsag/dualkey.go: Prove", "mlsag/mlsag.go: prove", "mlsag/proof.go: AddSecret, addSignerPubKey"]}
{"id": "C25", "title": "Proving without decoys (violated: panics)", "statement": "Expected: proving with an empty decoy set returns a signature or an error. The code panics with an index out of range for every message, secrets and randomness whenever the ring has one member and at least one key.", "quantifier": "all keys, messages, random coins with an empty decoy list", "why_tests_cant": "universal over inputs", "anchors": ["mlsag/mlsag.go: prove (challenge loop)", "mlsag/dualkey.go: Prove"]}
{"id": "C26", "title": "MLSAG Verify panics exactly on mis-dimensioned input", "statement": "With non-empty keys, responses and images, Verify does not panic if every ring position has a key vector, every response vector is at least as long as its key vector and as the image list, and every key vector is at least as long as the image list; after a successful Decode with keys, these conditions hold whenever the number of key images does not exceed the number of responses per member.", "quantifier": "all decoded signatures and image lists", "why_tests_cant": "all malformed inputs", "anchors": ["mlsag/mlsag.go: Verify, generateChallenge, Decode"]}
{"id": "C27", "title": "SubCommToZero subtracts the point from every decoy's second key only", "statement": "SubCommToZero(p) replaces the second key K of every vector in the ring by K-p, leaves all other keys, order and flags unchanged; two calls with p and q equal one call with p+q; it panics iff some vector has fewer than two keys.", "quantifier": "all rings and points", "why_tests_cant": "all ring sizes", "anchors": ["mlsag/dualkey.go: SubCommToZero"]}
{"id": "C28", "title": "MLSAG special soundness", "statement": "If for one ring member and fixed commitments the verification equations hold for two different challenges then the key vector's discrete logarithms are determined by the responses, and each key image equals that same discrete logarithm times Hp(K): the signer of that slot knows the secret and the image is the correct one. Whatever the order in which the hashes of an accepted signature were computed, there is a member whose hash was computed no later than the one giving its challenge, and from a second signature for another random oracle with the same hash input there and another challenge the secret keys of this member follow.", "quantifier": "all groups, points, challenges and responses", "why_tests_cant": "algebraic extraction over all transcripts", "anchors": ["mlsag/mlsag.go: generateChallenge, Verify"]}
{"id": "C29", "title": "bLSAG completeness", "statement": "For every message, mixin list (also empty), secret key, signer position and random coins, Verify(m, Sign(m, mixin, sk)) is true.", "quantifier": "all messages, mixins, keys, positions, coins", "why_tests_cant": "unbounded ring sizes and randomness with wrap-around index", "anchors": ["ringsig/blsag/blsag.go: Sign, Verify, computeCLR"]}
{"id": "C30", "title": "The bLSAG ring contains the mixins (violated)", "statement": "Expected: the PubKeys of a signature are the mixins and the signer's key. The code never copies the mixins: every position other than the signer's holds the zero-value point, and the signature depends on the mixins only through their number; so the ring reveals the signer.", "quantifier": "all mixin lists, keys, coins", "why_tests_cant": "the existing test passes despite the bug because equality with the zero-value point always holds", "anchors": ["ringsig/blsag/blsag.go: Sign"]}
{"id": "C31", "title": "bLSAG responses hide the signer's position (violated)", "statement": "Expected: responses are uniformly random at all non-signer positions. The response at position 0 is always zero unless the signer is at position 0.", "quantifier": "all inputs and coins with signer position not 0", "why_tests_cant": "holds for every random tape", "anchors": ["ringsig/blsag/blsag.go: Sign"]}
{"id": "C32", "title": "bLSAG Verify accepts exactly closing chains", "statement": "For a ring of n >= 1 keys with at least n responses, Verify is true iff iterating c -> Hs(m || s_i*G + c*K_i || s_i*Hp(K_i) + c*I) from C over all positions returns to C; responses beyond n are ignored; with an empty ring or fewer responses than keys Verify panics.", "quantifier": "all ring signatures and messages", "why_tests_cant": "all sizes and malformed inputs", "anchors": ["ringsig/blsag/blsag.go: Verify, computeCLR"]}
{"id": "C33", "title": "bLSAG key image links signatures of one key", "statement": "The key image in Sign's output is sk*Hp(sk*G), independent of message, mixins, position and coins.", "quantifier": "all inputs and coins", "why_tests_cant": "independence over all coins", "anchors": ["ringsig/blsag/blsag.go: Sign"]}
{"id": "C34", "title": "BLS sign/verify completeness", "statement": "For every secret key x with public key x*g2 and every message, VerifyUnsafe accepts UnsafeSign, and Verify accepts Sign under NewApk of the public key.", "quantifier": "all keys and messages", "why_tests_cant": "all keys/messages", "anchors": ["bls/bls.go: UnsafeSign, VerifyUnsafe, Sign, Verify, NewApk"]}
{"id": "C35", "title": "BLS multisignature aggregation completeness", "statement": "For every non-empty list of key pairs (repetitions allowed) and one message, the aggregate of the individual Sign results (via Aggregate, AggregateBytes or Add) verifies under AggregateApk of the public keys; the number and order of aggregation steps do not matter (a contribution that is the point at infinity is not sent in compressed form).", "quantifier": "all lists of key pairs, all orders, all messages", "why_tests_cant": "unbounded number of signers and permutations", "anchors": ["bls/bls.go: AggregateApk, Apk.Aggregate, Signature.Aggregate, Signature.Add, AggregateBytes, Verify"]}
{"id": "C36", "title": "BLS batch verification is exact", "statement": "verifyBatch (VerifyBatch, VerifyUnsafeBatch, VerifyCompressed) on n>=1 pairwise distinct messages and at least n keys accepts iff the signature pairs with the base like the product of the pairings of message points with the first n keys; an aggregate of individually valid signatures on distinct messages is always accepted.", "quantifier": "all numbers of messages, keys and signatures", "why_tests_cant": "unbounded batch sizes", "anchors": ["bls/bls.go: verifyBatch, VerifyBatch, VerifyUnsafeBatch, VerifyCompressed, UnsafeBatch, UnsafeAggregate"]}
{"id": "C37", "title": "BLS signatures are unique", "statement": "For a given key and message at most one signature (group element) verifies.", "quantifier": "all keys, messages, pairs of signatures", "why_tests_cant": "universally quantified over signatures", "anchors": ["bls/bls.go: Verify, VerifyUnsafe"]}
{"id": "C38", "title": "BLS signatures are unforgeable (violated: one signature yields all)", "statement": "Expected: without the secret key no signature on a new message can be computed. Because messages are mapped to known multiples of the generator, scaling one valid signature on m by H(m')/H(m) gives a valid signature on any m', for VerifyUnsafe, Verify and multisignatures alike, whenever H(m) is not 0 modulo the group order.", "quantifier": "all keys, all message pairs", "why_tests_cant": "an attack quantified over all messages; no positive test reveals it", "anchors": ["bls/bls.go: h0, UnsafeSign, Sign, Verify, VerifyUnsafe"]}
{"id": "C39", "title": "Distinct messages prevent rogue-key attacks (violated)", "statement": "Expected: VerifyUnsafeBatch with distinct messages resists rogue keys. For every honest public key and every two messages with different digests and H(m2) nonzero there is a key, computable from public data and a chosen scalar, with which a signature made without the honest secret is accepted for both; with allowDistinct the classical rogue key pk' = a*g2 - pk is accepted on equal messages (by VerifyCompressed, if the signature is not the point at infinity).", "quantifier": "all honest keys, messages, attacker scalars", "why_tests_cant": "attack quantified over all keys", "anchors": ["bls/bls.go: VerifyUnsafeBatch, VerifyCompressed, verifyBatch, h0"]}
{"id": "C40", "title": "Duplicate messages are always rejected by batch verification", "statement": "If the message list given to VerifyBatch, VerifyUnsafeBatch or VerifyCompressed(allowDistinct=false) contains two equal messages, an error is returned whatever keys and signature; a list of pairwise distinct messages is rejected for this reason only if two of them collide under SHA3-256.", "quantifier": "all message lists", "why_tests_cant": "all lists and positions of the duplicates", "anchors": ["bls/bls.go: distinct, verifyBatch"]}
{"id": "C41", "title": "Batch verification argument counts", "statement": "VerifyBatch rejects unequal numbers of keys and messages. VerifyUnsafeBatch and VerifyCompressed do not: surplus keys are silently ignored, missing keys panic, and an empty message list panics in all three.", "quantifier": "all list lengths", "why_tests_cant": "all lengths", "anchors": ["bls/bls.go: VerifyBatch, VerifyUnsafeBatch, VerifyCompressed, verifyBatch"]}
{"id": "C42", "title": "BLS marshalling round trips", "statement": "Unmarshal(Marshal(x)) = x for public keys, Apks, signatures and unsafe signatures; for a signature other than the point at infinity Decompress(Compress(s)) = s and Signature.Unmarshal also accepts the 33-byte compressed form with the same result; trailing bytes after a full encoding are ignored, so encodings are not unique.", "quantifier": "all group elements and all trailing byte strings", "why_tests_cant": "all values", "anchors": ["bls/bls.go: Marshal, Unmarshal, UnmarshalPk, UnmarshalApk, UnmarshalSignature, Compress, Decompress"]}
{"id": "C43", "title": "Failed BLS decoding leaves the receiver usable (violated for public keys)", "statement": "A failing Signature.Unmarshal, Signature.Decompress, UnsafeSignature.Unmarshal, AggregateBytes (signature or Apk) leaves the receiver unchanged for every input; a failing PublicKey.Unmarshal or UnmarshalText (after text decoding) replaces the receiver's point by a fresh, partially parsed one.", "quantifier": "all byte strings and receivers", "why_tests_cant": "all malformed inputs", "anchors": ["bls/bls.go: Signature.Unmarshal, Decompress, AggregateBytes, PublicKey.Unmarshal, UnmarshalText"]}
{"id": "C44", "title": "Public key text encoding round trips", "statement": "UnmarshalText(MarshalText(pk)) yields pk; the text uses only URL-safe base64 characters without padding; decoding accepts exactly strings whose characters other than CR/LF are in the alphabet and whose number modulo 4 is not 1.", "quantifier": "all public keys, all texts", "why_tests_cant": "all lengths and byte values of base64", "anchors": ["bls/bls.go: MarshalText, UnmarshalText, encodeToText, decodeText"]}
{"id": "C45", "title": "BLS aggregation handles are isolated", "statement": "In every history of key generation, NewApk, Copy, Aggregate, AggregateApk, PublicKey.Aggregate, Sign, Signature.Copy, Signature.Aggregate and UnsafeBatch on shared handles, an in-place aggregation changes only its receiver: every other public key, Apk and signature keeps its value; Copy yields an equal value at an independent handle.", "quantifier": "all histories of operations over any number of handles", "why_tests_cant": "aliasing over all histories", "anchors": ["bls/bls.go: Copy, Aggregate, AggregateApk, NewApk, UnsafeBatch, UnsafeAggregate"]}
{"id": "C46", "title": "AggregateApk corner cases", "statement": "AggregateApk of a non-empty list of non-nil keys returns sum of H1(pk_i)*pk_i; of the empty list it returns a nil Apk and a nil error, on which Verify panics; if the first key is nil and more keys follow, or a later key is nil, it panics.", "quantifier": "all lists with nil entries at all positions", "why_tests_cant": "all positions of nil", "anchors": ["bls/bls.go: AggregateApk, NewApk, Apk.Aggregate, Verify"]}
{"id": "C47", "title": "Vector operations are the pointwise operations, guarded by length", "statement": "Add, Sub, Hadamard, InnerProduct and Exp return an error iff the lengths differ (Exp also if shorter than N*M) and otherwise the pointwise sum, difference, product, scalar product and multi-scalar multiplication; AddScalar, SubScalar, MulScalar, Neg, FromScalar, SplitScalars and SplitPoints are their pointwise/partition counterparts with SplitX failing iff n >= len.", "quantifier": "all vectors and scalars of all lengths", "why_tests_cant": "all lengths", "anchors": ["rangeproof/vector/vector.go"]}
{"id": "C48", "title": "ScalarPowers and ScalarPowersSum are the powers and their sum (violated at base 0)", "statement": "For a != 0, ScalarPowers(a,n) = <1,a,...,a^(n-1)>, and ScalarPowersSum(a,n) = 1+a+...+a^(n-1) for every a; ScalarPowers(0,n) is all zeros although 0^0 = 1, so for a=0 and n>=1 the two functions disagree.", "quantifier": "all scalars and lengths", "why_tests_cant": "all lengths; the zero base is a measure-zero input", "anchors": ["rangeproof/vector/vector.go: ScalarPowers, ScalarPowersSum"]}
{"id": "C49", "title": "Generators form one deterministic chain", "statement": "After any sequence of Compute calls the bases are the first k elements of the chain d0 = Derive(data), d_{i+1} = Derive(bytes(d_i)), where k is the total computed since the last Clear; so batches can be split arbitrarily and Clear restarts the same chain.", "quantifier": "all data, all histories of Compute, Iterate and Clear", "why_tests_cant": "all operation sequences", "anchors": ["rangeproof/generators/generator.go"]}
{"id": "C50", "title": "Pedersen commitments open, add up and bind", "statement": "CommitToScalar(v) returns v*Base + blind*Blind together with that blinding factor; sums of commitments are commitments to sums under summed blindings; any two openings of one point with different values yield the discrete logarithm of Base with respect to the blinding base.", "quantifier": "all values, blindings, numbers of commitments", "why_tests_cant": "algebraic law over all values", "anchors": ["rangeproof/pedersen/pedersen.go: CommitToScalar, New"]}
{"id": "C51", "title": "CommitToVectors uses separate generator chains per vector (violated beyond 256 vectors)", "statement": "CommitToVectors(v_0..v_k) = blind*Blind + sum_i <v_i, chain(data_i)> where data_0 = GenData and data_i = GenData || byte(i); chains' seeds are pairwise distinct for at most 256 vectors, but vector 257 reuses the seed of vector 1; the base vector of the Pedersen struct is extended to max(existing, len(v_0)) elements of its chain.", "quantifier": "all numbers and lengths of vectors, all precomputation states", "why_tests_cant": "all counts; wrap-around of uint8 only after 256", "anchors": ["rangeproof/pedersen/pedersen.go: CommitToVectors, commitToScalars"]}
{"id": "C52", "title": "Fiat-Shamir cache is plain concatenation", "statement": "After any history of Append and Clear, Result is the concatenation of all values appended since the last Clear and Derive depends only on it; splitting values differently across Append calls gives the same challenge (no domain separation between values).", "quantifier": "all histories of operations", "why_tests_cant": "all operation sequences", "anchors": ["rangeproof/fiatshamir/fiatshamir.go"]}
{"id": "C53", "title": "Inner product proof completeness", "statement": "For every n = 2^k with k < 32, vectors a, b, generators G, H, factors h' and Q, Generate succeeds and Verify accepts the proof for P = <a,G> + <b o h', H> + <a,b>Q provided no folding challenge is zero.", "quantifier": "all powers of two, all vectors and points, all hash functions", "why_tests_cant": "unbounded recursion depth", "anchors": ["rangeproof/innerproduct/innerproduct.go: Generate, Verify, VerifScalars"]}
{"id": "C54", "title": "VerifScalars returns the folding weights", "statement": "With L and R of equal length k < 32, VerifScalars returns u_j^2, u_j^-2 and s of length 2^k with s_i = product over j of u_j if bit k-1-j of i is set, else u_j^-1; reversing s inverts each entry when all u_j are nonzero; unequal lengths give nil vectors.", "quantifier": "all proof lengths and indices", "why_tests_cant": "bit-indexed recurrence over unbounded sizes", "anchors": ["rangeproof/innerproduct/innerproduct.go: VerifScalars"]}
{"id": "C55", "title": "Generate rejects or panics on malformed sizes, never yields a proof", "statement": "Generate returns an error if len(G) is not a power of two; with len(G) = 2^k >= 2 it yields a proof only if a, b, H have the same length as G; with empty vectors it panics.", "quantifier": "all combinations of lengths", "why_tests_cant": "all length combinations; several intermediate errors are ignored by the code", "anchors": ["rangeproof/innerproduct/innerproduct.go: Generate, isPower2"]}
{"id": "C56", "title": "DiffNextPow2 is the minimal padding to a power of two", "statement": "For every uint32 n >= 1, n + DiffNextPow2(n) is the least power of two >= n (as an integer, up to 2^32); isPower2(n) holds iff n is zero or a power of two.", "quantifier": "all 2^32 inputs", "why_tests_cant": "the whole 32-bit domain of bit tricks", "anchors": ["rangeproof/innerproduct/innerproduct.go: nextPow2, DiffNextPow2, isPower2"]}
{"id": "C57", "title": "Inner product proof encoding round trips but is malleable", "statement": "Decode(Encode(p)) = p for every proof with |L| = |R|; Decode consumes the whole stream, accepts the encoding followed by any 32 bytes as the same proof, accepts an encoding cut after any pair of points as a shorter proof, and accepts encodings in which L or R entries are not valid points.", "quantifier": "all proofs and trailing bytes", "why_tests_cant": "all values; silent acceptance", "anchors": ["rangeproof/innerproduct/innerproduct.go: Encode, Decode"]}
{"id": "C58", "title": "Inner product argument knowledge soundness", "statement": "From a full tree of transcripts accepted by Verify for point P (four nonzero challenges with pairwise distinct squares per round) an explicit extractor computes vectors a, b with P = <a,G> + <b o h',H> + <a,b>Q, or the coefficients of a nontrivial relation between G, H and Q; with linearly independent generators it always computes a, b.", "quantifier": "all transcript trees of all depths", "why_tests_cant": "an extraction argument over all provers", "anchors": ["rangeproof/innerproduct/innerproduct.go: Verify, VerifScalars"]}
{"id": "C59", "title": "BitCommit is the 64-bit decomposition", "statement": "For every integer v, BitCommit(v) gives AL in {0,1}^64 with sum AL_i 2^i = |v| mod 2^64, AR = AL - 1 and AL o AR = 0; Debug(v) succeeds on BitCommit(v) iff 0 <= v < 2^64. On arbitrary AL, AR of at least 64 entries Debug(v) succeeds iff v is a 64-bit number whose set bits are the positions of 1 in AL and of 0 in AR (other entries are not checked); with fewer entries it panics.", "quantifier": "all integers", "why_tests_cant": "all 2^64 values and beyond", "anchors": ["rangeproof/bitCommitment.go: BitCommit, Debug"]}
{"id": "C60", "title": "Range proof completeness", "statement": "For every list of 1..16 values below 2^64, all random coins and all hash functions, Prove (without debug) either reports a zero challenge or returns a proof that Verify accepts for every verifier coin, provided no folding challenge is zero and no other Prove ran in between.", "quantifier": "all value lists, coins, hash functions", "why_tests_cant": "cryptographic completeness over all values and coins", "anchors": ["rangeproof/rangeproof.go: Prove, Verify, megacheckWithC", "rangeproof/poly.go", "rangeproof/bitCommitment.go", "rangeproof/innerproduct/innerproduct.go"]}
{"id": "C61", "title": "Proofs of out-of-range values never verify", "statement": "If Prove is run without debug on values some of which are >= 2^64 it still returns a proof, which Verify accepts iff sum_j z^(j+2) (v_j - (v_j mod 2^64)) = 0 in the scalar field (or the base point is degenerate); in particular for a single value it is always rejected.", "quantifier": "all value lists, coins, hash functions, verifier coins", "why_tests_cant": "all out-of-range values", "anchors": ["rangeproof/rangeproof.go: Prove, Verify", "rangeproof/bitCommitment.go: BitCommit"]}
{"id": "C62", "title": "Verify is a function of the proof (violated by the global M)", "statement": "Expected: the verdict on a proof does not depend on what else the process did. The verdict uses a package variable set by the last Prove call, even a failing one: in the initial state a valid proof for more than one value is rejected with an error, and after Prove with another padded count a valid proof is rejected; the verdict depends on the history only through that variable.", "quantifier": "all histories of Prove and Verify calls", "why_tests_cant": "history property; tests run one Prove before one Verify", "anchors": ["rangeproof/rangeproof.go: M, Prove, Verify, computeS", "rangeproof/poly.go: sumZMTwoN, computePoly"]}
{"id": "C63", "title": "Verify's random linear combination is exactly two equations", "statement": "On dimensionally well-formed proofs Verify accepts with coin c iff R1 + c*R2 = 0 where R1 is the polynomial-commitment residue and R2 the inner-product residue; so it accepts for every c if both vanish, and for at most one c otherwise.", "quantifier": "all proofs and all coins c", "why_tests_cant": "quantifies over all coins", "anchors": ["rangeproof/rangeproof.go: megacheckWithC, Verify"]}
{"id": "C64", "title": "Every commitment in an accepted proof is range-checked (violated)", "statement": "Expected: Verify = true covers all of proof.V. Only the first M commitments enter the check: for arbitrary extra commitments a proof can be produced that contains them and is accepted, without knowing any opening of the extra ones.", "quantifier": "all extra commitment lists", "why_tests_cant": "universal attack; tests only use honest proofs", "anchors": ["rangeproof/rangeproof.go: Verify, megacheckWithC"]}
{"id": "C65", "title": "Debug mode agrees with normal mode (violated at 2^64-1)", "statement": "Expected: debug only adds checks that hold for every in-range value. Prove with debug succeeds for values below 2^64-1 (same result as without debug), but rejects 2^64-1, which is in range and provable without debug.", "quantifier": "all values and coins", "why_tests_cant": "boundary plus all random coins", "anchors": ["rangeproof/debug.go: debugProve, debugsizeOfV, debugLxG, debugRxHPrime, debugT0", "rangeproof/rangeproof.go: Prove"]}
{"id": "C66", "title": "Range proof encoding round trips", "statement": "Decode(Encode(p)) restores every encoded field of a proof (commitment points if included, A, S, T1, T2, taux, mu, t, inner product proof), and the decoded proof gets the same verdict from Verify; blinding factors are not transmitted.", "quantifier": "all proofs, both flag values", "why_tests_cant": "all values", "anchors": ["rangeproof/rangeproof.go: Encode, Decode", "rangeproof/pedersen/pedersen.go: EncodeCommitments, DecodeCommitments"]}
{"id": "C67", "title": "rangeproof Proof.Equals is equality (violated)", "statement": "Expected: Equals is true iff the proofs are equal. It ignores the inner product proof; with includeCommits=false it still compares commitments, panicking when the other proof has fewer; with equal numbers of commitments it is exactly equality of commitment points and the seven outer components. The Equals of inner product proofs is equality for equally long lists, true also if the other proof has additional rounds, and panics if the other has fewer but agrees otherwise.", "quantifier": "all pairs of proofs", "why_tests_cant": "relational property", "anchors": ["rangeproof/rangeproof.go: Equals", "rangeproof/innerproduct/innerproduct.go: Equals"]}
{"id": "C68", "title": "Prove's own failures", "statement": "Prove fails (with an error, never a panic) exactly when given no values, more than 16 values, a zero challenge, or in debug mode a failing check; the proof has exactly the padded number of commitments, the first ones committing to the given values and the rest to zero.", "quantifier": "all value lists and coins", "why_tests_cant": "all inputs", "anchors": ["rangeproof/rangeproof.go: Prove"]}
{"id": "C69", "title": "Range proof knowledge soundness", "statement": "From a complete tree of accepted transcripts for commitments V_1..V_M an explicit calculation that does not use the generators gives openings v_j, gamma_j of every V_j with v_j below 2^64, or the coefficients of a non-trivial relation between the generators (G, H vectors, Base, Blind). If there is no such relation, no V_j opens to a value outside the range.", "quantifier": "all transcript trees, all M", "why_tests_cant": "an extraction argument over all provers", "anchors": ["rangeproof/rangeproof.go: Verify, megacheckWithC", "rangeproof/poly.go: computeDelta, sumZMTwoN"]}
{"id": "C70", "title": "Concurrent Prove calls do not interfere (violated)", "statement": "Expected: Prove can be used from several goroutines. Because M is an unsynchronised package variable read at every stage, there are interleavings of two individually successful Prove calls in which one of them fails; runs whose reads of M all see the caller's own value behave as if run alone.", "quantifier": "all interleavings of the reads and writes of M", "why_tests_cant": "every schedule", "anchors": ["rangeproof/rangeproof.go: M, Prove, computeS", "rangeproof/poly.go: computePoly, sumZMTwoN"]}
{"id": "C71", "title": "Decoders accept exactly the valid encodings (violated by the inner product decoder)", "statement": "Commitment.Decode, DecodeCommitments, MLSAG Signature.Decode and the outer part of the range proof's Decode succeed on a stream iff it starts with a string of the documented layout all of whose 32-byte point fields are valid point encodings, consume exactly that string and return the value it denotes. The inner product Decode accepts every stream of 64+32k bytes, valid point encodings or not, and drops an odd block at the end.", "quantifier": "all byte streams, all chunkings", "why_tests_cant": "quantifies over all malformed inputs", "anchors": ["rangeproof/pedersen/pedersen.go: Decode, DecodeCommitments", "mlsag/mlsag.go: Decode", "mlsag/pubkeys.go: Decode", "mlsag/responses.go: Decode", "rangeproof/innerproduct/innerproduct.go: Decode", "rangeproof/rangeproof.go: Decode"]}
{"id": "C72", "title": "Commitment equality (not preserved by encoding: violated)", "statement": "EqualValue is equality of commitment points, Equals is equality of points and blinding factors. Expected: a decoded commitment Equals the encoded one; this fails for every commitment with a nonzero blinding factor, for which only EqualValue holds.", "quantifier": "all pairs of commitments", "why_tests_cant": "relational property over all values", "anchors": ["rangeproof/pedersen/pedersen.go: EqualValue, Equals, Encode, Decode"]}
{"id": "C73", "title": "An accepted inner product proof is bound to its statement (violated)", "statement": "Expected: if Verify accepts for a point P, then P = <a,G> + <b o h',H> + <a,b>Q for vectors known to the prover. The challenges do not depend on Q or P, so a proof made by Generate with Q = 0 is accepted for every Q with P = <a,G> + <b o h',H> + (A*B)Q; for every size 2^k > 1 there are a, b with A*B != <a,b>, and with independent generators this P is not of the required form for any vectors.", "quantifier": "all k with 0 < k < 32, all generators and factors, every hash function without zero challenges", "why_tests_cant": "an attack for all parameters; tests only verify honest proofs", "anchors": ["rangeproof/innerproduct/innerproduct.go: Generate, VerifScalars, Verify"]}
{"id": "C74", "title": "Inner product Verify on every shape of arguments (boundary of G and H not checked: violated)", "statement": "Verify returns false if L and R differ in length, panics if there are fewer factors than weights, returns false if the number of generators is not twice the number of weights or n exceeds the number of points, and otherwise accepts exactly one point P. Expected: G and H must each have the right length; in fact only their concatenation matters.", "quantifier": "all proofs and argument lengths", "why_tests_cant": "all shapes", "anchors": ["rangeproof/innerproduct/innerproduct.go: Verify, VerifScalars"]}
{"id": "C75", "title": "A published range proof hides the values", "statement": "For any two equally long lists of in-range values and any published proof (what Encode transmits), there is a bijection of the random coins taking the runs of Prove on the first list that publish this proof to the runs on the second list that publish it; the coins are at most 16 + 2*1024 + 4 scalars, and over a finite scalar field there is one bijection of this finite set under which all results, errors included, are equal: with uniform coins the distribution of what is published does not depend on the values. This also holds for any number of proofs whose values are chosen by an observer who sees the earlier ones: whatever it says at the end, it says with the same probability whether the first or the second of its lists were proved; in particular proving zeros simulates all proofs. Verify depends only on what is published.", "quantifier": "all value lists, coins and proofs, every hash function, groups in which every point is a multiple of the base point", "why_tests_cant": "a statement about the distribution over all random coins", "anchors": ["rangeproof/rangeproof.go: Prove, Verify, computeA, computeS, computeTaux, computeMu", "rangeproof/poly.go: computePoly"]}
{"id": "C76", "title": "An accepted MLSAG signature cannot be altered without the secret keys (violated)", "statement": "Expected: nobody can turn an accepted signature into a different accepted one. Verify reads only the first len(r) key vectors, of each member only as many responses as it has keys, and no decoy flags: whatever it accepts it also accepts after appending arbitrary key vectors and responses. The altered signature is told apart by Equals and survives Encode/Decode without keys.", "quantifier": "all signatures, key images and additions", "why_tests_cant": "universally quantified attack", "anchors": ["mlsag/mlsag.go: Verify, generateChallenge, Equals, Encode, Decode"]}
{"id": "C77", "title": "An accepted MLSAG signature is bound to its ring (violated for keys without image)", "statement": "Expected: a signature is valid only for the ring it was made for. For every accepted signature of a ring of two or more members, every key that has no key image (in DualKey the second key of every member) can be replaced by K + d*G for any d, with a compensating change of one response that is computed from the signature alone; Verify accepts the result with the same message, images and challenge.", "quantifier": "all accepted signatures, members, keys without image and d", "why_tests_cant": "universally quantified attack", "anchors": ["mlsag/mlsag.go: Verify, generateChallenge, prove", "mlsag/dualkey.go: Prove"]}
{"id": "C78", "title": "MLSAG Verify checks the shape of the ring (violated)", "statement": "Expected: all members have the same number of keys, and there is an image for each key, or each but the last. For all decoys of any sizes and any number k >= 1 of images, someone knowing the keys of one member of any size >= k makes a signature that Verify accepts; e.g. a signer with one key among decoys with two.", "quantifier": "all rings, sizes and numbers of images", "why_tests_cant": "all shapes, universally quantified attack", "anchors": ["mlsag/mlsag.go: Verify, generateChallenge"]}
{"id": "C79", "title": "The shuffle of the MLSAG ring is unbiased for uniform choices", "statement": "For a ring of any number of distinct key vectors, every ordering is the result of the shuffle for exactly one sequence of choices Intn(i+1); hence if the choices are uniform and independent, all orderings, and all positions of the signer, are equally likely.", "quantifier": "all rings and orderings", "why_tests_cant": "a counting statement about all n! orderings for all n", "anchors": ["mlsag/proof.go: shuffleSet"]}
{"id": "C80", "title": "The signer's position in the MLSAG ring is unpredictable (violated)", "statement": "Expected: the position of the signer in the published ring is unpredictable. The shuffle uses a generator seeded with the time in seconds and the signer's keys are always appended last, so the signer's position is a function of the second and the number of decoys only, the same for all keys, messages, decoys and other randomness; two signatures made in the same second with equally many decoys have their signers at the same position.", "quantifier": "all keys, decoys, messages, random scalars, generators and seeds", "why_tests_cant": "anonymity is a statement about all runs", "anchors": ["mlsag/proof.go: shuffleSet, addSignerPubKey", "mlsag/mlsag.go: prove"]}
{"id": "C81", "title": "SubCommToZero changes only the ring's second keys (violated for shared vectors)", "statement": "SubCommToZero(P) panics iff some member has fewer than two keys. Otherwise the second element of every array of points decreases by n*P, n being the number of ring members that use this array; if no vectors share arrays, this is the subtraction of P from the second key of each member. Expected but violated: the caller's own PubKeys, passed by value to AddDecoy, changes too; a decoy added twice is shifted by 2P; a signature returned before by Prove changes with the ring.", "quantifier": "all memories, rings and sharing patterns", "why_tests_cant": "aliasing between any number of slices", "anchors": ["mlsag/dualkey.go: SubCommToZero", "mlsag/proof.go: AddDecoy, addPubKeys"]}
{"id": "C82", "title": "A signature is not changed by later calls on its DualKey (violated)", "statement": "With slices and their capacities modelled, Prove has the same results as on values, for any growth policy of the runtime. If the array of the ring is full, a later Prove leaves earlier signatures alone. Expected but violated: if there is room, a second Prove (which returns an error) appends the signer's vector in place and shuffles the array, so the ring of the first signature becomes the start of the shuffled ring; unless the signer stays last, verifying the first signature, accepted before, panics.", "quantifier": "all memories, growth policies, decoys, keys and coins", "why_tests_cant": "depends on capacities chosen by the runtime and on the random shuffle", "anchors": ["mlsag/mlsag.go: prove, Verify", "mlsag/proof.go: addSignerPubKey, shuffleSet, AddSecret", "mlsag/dualkey.go: Prove"]}
{"id": "C83", "title": "The first DualKey.Prove: when it succeeds, fails or panics", "statement": "After any sequence of calls on a new DualKey, including the methods AddSecret, AddDecoy and AddDecoys of the embedded Proof, the first Prove succeeds iff both keys are non-zero, AddSecret was never called, there is a decoy and all decoys have two keys. With non-zero keys and no decoy it panics; in the other cases it returns an error.", "quantifier": "all call sequences, keys, decoys and coins", "why_tests_cant": "unbounded call sequences", "anchors": ["mlsag/dualkey.go: Prove", "mlsag/proof.go: AddSecret, AddDecoys", "mlsag/mlsag.go: prove"]}
{"id": "C84", "title": "DualKey: keys, message and ring follow from the calls", "statement": "After any sequence of calls on a new DualKey (which panics iff a SubCommToZero follows a decoy of fewer than two keys), a first Prove uses the last primary key, the last commitment key and the last message, and a ring of exactly the added decoys, each with its second key reduced by the sum of the points subtracted after it was added, and the signer's two public keys. A key never set counts as zero and is refused; no decoys: panic; AddSecret or a decoy without exactly two keys: error; otherwise a signature that verifies with the returned image of the last primary key.", "quantifier": "all call sequences, keys, decoys, points and coins", "why_tests_cant": "unbounded call sequences in any order", "anchors": ["mlsag/dualkey.go: NewDualKey, SetPrimaryKey, SetCommToZero, SetMsg, SubCommToZero, Prove", "mlsag/proof.go: AddDecoy, AddDecoys, AddSecret"]}
{"id": "C85", "title": "The base points of package bls", "statement": "Hex decoding at initialisation inverts hexadecimal encoding for all byte strings; the two constants are the encodings of the point (1, p-2) of y^2 = x^3 + 3 and of a point of the twist (i+3)(y^2 - x^3) = 3, with reduced coordinates, p being the Barreto-Naehrig prime for u = 1868033^3.", "quantifier": "all byte strings for the decoding; the two constants of the package", "why_tests_cant": "the decoding for all strings; no test checks the constants against the curve", "anchors": ["bls/bls.go: g1Str, g2Str, init, newG1Base, newG2Base"]}
{"id": "C86", "title": "Range proof Verify on every shape of proof (violated: remote panic)", "statement": "With M = m, Verify returns an error unless the inner product proof has log2(64 m) rounds; otherwise returns true or an error, never (false, nil). Expected: no panic on anything Decode accepts. It panics exactly if the inner product proof is missing, or has the right number of rounds while there are fewer than m commitments; for every m = 2^j such a proof passes Encode and Decode (in a fresh process: no commitment at all).", "quantifier": "all proofs, all m with 1 <= m < 2^26, all random scalars", "why_tests_cant": "all shapes of proofs, and a universally quantified attack", "anchors": ["rangeproof/rangeproof.go: Verify, megacheckWithC, Decode", "rangeproof/innerproduct/innerproduct.go: VerifScalars"]}
{"id": "C87", "title": "What Decode leaves in its receiver and allocates, also when it fails (violated)", "statement": "For every stream, the value of every field of the receiver after Signature.Decode, innerproduct Proof.Decode and rangeproof Proof.Decode is determined, whether the call succeeds or fails: a field is overwritten iff everything before it could be read and decoded. Expected: memory proportional to the stream and an unchanged receiver after an error. A stream of 40 bytes makes Signature.Decode allocate, and accept, any number of members below 2^32; 4 bytes make Proof.Decode allocate any number of commitments; failed calls leave mixtures of old and new fields. If members have responses, an accepted stream is at least 16 times as long as what is allocated.", "quantifier": "all streams, receivers, counts, and whatever a rejected point encoding leaves behind", "why_tests_cant": "all truncation points and all invalid encodings at once; universally quantified attacks", "anchors": ["mlsag/mlsag.go: Decode", "mlsag/responses.go: Decode", "mlsag/pubkeys.go: Decode", "rangeproof/rangeproof.go: Decode, readerToPoint", "rangeproof/pedersen/pedersen.go: DecodeCommitments", "rangeproof/innerproduct/innerproduct.go: Decode"]}
{"id": "C88", "title": "Which failure NewTree and VerifyTree report", "statement": "NewTree reports the failure (error or panic) of the first payload, in the order given, that cannot be hashed. VerifyTree, on a tree whose payloads may since have been changed, recomputes the hashes from the right: it reports the failure of the last payload that cannot be hashed, whatever hashes are stored; if all can be hashed it does not fail.", "quantifier": "all trees built by NewTree, all later changes of payloads and stored hashes", "why_tests_cant": "all combinations of failing payloads and positions", "anchors": ["merkletree/merkletree.go: NewTree, VerifyTree, VerifyNode, create"]}
{"id": "C89", "title": "Bookkeeping of keys, responses and members; decoding into a receiver in use", "statement": "AddPubKey, AddResponse and AddPrivateKey append and Len counts; OutputKey is the first key and panics iff there is none. Responses.Decode and PubKeys.Decode append to what the receiver already holds, also when they fail (everything before the first missing or invalid block stays), so decoding an encoded vector into one in use is accepted and yields a different vector with the old output key. The points returned by SetPrimaryKey and SetCommToZero are the signer's two keys in the ring of the first signature. LenMembers is the number of decoys plus the number of calls of Prove with non-zero keys, successful or not.", "quantifier": "all vectors, streams, receivers and call sequences including repeated Prove", "why_tests_cant": "unbounded sequences of calls and all truncation points", "anchors": ["mlsag/pubkeys.go: AddPubKey, Len, OutputKey, Decode", "mlsag/responses.go: AddResponse, Len, Decode", "mlsag/privatekeys.go: AddPrivateKey, Len", "mlsag/proof.go: LenMembers", "mlsag/dualkey.go: SetPrimaryKey, SetCommToZero", "mlsag/mlsag.go: isNumInList, readerToPoint"]}
{"id": "C90", "title": "rangeproof.Prove does not write into the memory of its caller (violated)", "statement": "Prove of a slice returns what it returns for its elements, whatever the memory around it and the growth policy of append. Expected: the caller's memory is unchanged. With 1 to 16 values, not a power of two, and spare capacity, the elements of the array behind the slice become zero as far as padding and capacity reach; nothing else changes, and nothing changes in the other cases. A later proof of another slice of the same array (such as all[3:] or all after all[:3]) therefore commits to zero instead of the stored amounts.", "quantifier": "all memories, slices, capacities, growth policies, values and coins", "why_tests_cant": "depends on capacities and sharing, which no test varies; all sizes at once", "anchors": ["rangeproof/rangeproof.go: Prove"]}
{"id": "C91", "title": "The generators of a Pedersen value are fixed by the seed given to New (violated)", "statement": "CommitToVectors returns what it returns for the bytes of the seed at the time of the call, whatever the memory around it. Expected: the generators depend only on the seed given to New. This holds for a value whose seed nobody writes to: the caller does not, and no other seed that ends inside it has spare capacity; for all programs on any number of values. Otherwise: a byte the caller stores after New and before the first base is derived, or after Clear, changes the generators; and CommitToVectors of two or more vectors overwrites the byte behind its own seed (exactly this byte, only if within the capacity), so that another value made from one byte more of the same array gets the generators which the call used for its last vector.", "quantifier": "all memories, slices, capacities, growth policies, programs of New, Compute, Clear, CommitToVectors and assignments", "why_tests_cant": "depends on sharing of memory between calls and objects", "anchors": ["rangeproof/pedersen/pedersen.go: New, CommitToVectors", "rangeproof/generators/generator.go: New, Clear, Iterate, Compute"]}
{"id": "C92", "title": "Transcripts are independent of each other (violated for copies)", "statement": "Append adds the bytes of its arguments, also if they lie in the cache itself. For a caller who does not copy a HashCacher and does not assign to what Result returns, every transcript is the concatenation of what was appended since it was made or cleared, through all interleavings, and the caller's memory stays as it is. Expected also for copies: but what is appended to a copy of the struct replaces what was appended to the original while there is spare capacity, so that the challenge of one transcript is that of the other; and Result hands out the memory of the cache.", "quantifier": "all memories, arguments, growth policies and programs on any number of HashCacher values", "why_tests_cant": "all interleavings, capacities and growth policies", "anchors": ["rangeproof/fiatshamir/fiatshamir.go: Append, Result, Clear, Derive"]}
{"id": "C93", "title": "The functions of package vector return new memory (violated: SubScalar, Neg, Split)", "statement": "Add, Sub, Hadamard, AddScalar, MulScalar, FromScalar, ScalarPowers, Neg of a non-empty slice and SubScalar of a non-zero scalar return a new array with the elements of the specification and change no other memory, also for overlapping arguments; if they fail they change nothing. Expected of all: but SubScalar of zero and Neg of an empty slice return their argument, and the first half returned by SplitScalars and SplitPoints has capacity over the second, so that appending to it replaces elements of the second half and of the argument.", "quantifier": "all memories, slices, scalars, sizes and growth policies", "why_tests_cant": "depends on overlapping slices and capacities; all sizes", "anchors": ["rangeproof/vector/vector.go: Add, AddScalar, Sub, Neg, SubScalar, MulScalar, ScalarPowers, Hadamard, FromScalar, SplitPoints, SplitScalars"]}
{"id": "C94", "title": "innerproduct.Generate works on its own memory, whatever its arguments share", "statement": "Generate returns what it returns for the elements of its five slice arguments, whatever the memory around them and also if the slices overlap or are the same slice, although it folds the vectors in place and keeps halves that are slices of each other. Whatever the outcome, every array that existed before the call is unchanged. For lengths 2^k it succeeds, and unless a challenge is zero Verify accepts the proof for the contents of the slices after the call.", "quantifier": "all memories, slices, sharing, sizes, factors and points; every outcome", "why_tests_cant": "depends on how the arguments share memory; all sizes", "anchors": ["rangeproof/innerproduct/innerproduct.go: Generate", "rangeproof/vector/vector.go: SplitScalars, SplitPoints, InnerProduct, Exp"]}
{"id": "C95", "title": "bLSAG special soundness and the member to extract from", "statement": "If one ring member has the same hash input for two different challenges (same message, image and key), its secret key is (s'-s)/(c-c') and the image is the one of this key. Verify accepts a ring of group elements iff every challenge is the hash belonging to the member before it, cyclically. Whatever the order in which the hashes of an accepted signature were computed, there is a member whose hash was computed no later than the one giving its challenge; from a second signature for another random oracle with the same hash input there and another challenge, the secret key of this member follows.", "quantifier": "all messages, rings, images, responses, challenges, orders of hash queries and random oracles", "why_tests_cant": "security statement over all adversaries' outputs", "anchors": ["ringsig/blsag/blsag.go: Verify, computeCLR"]}
{"id": "C96", "title": "A bLSAG signature needs a secret key of its ring (violated for the rings made by Sign)", "statement": "Expected: nobody without a secret key of the ring can make an accepted signature. If the zero value of ristretto.Point is in the ring and absorbs in the group operations (as it does in projective formulas), then the signature with the zero value as image, any responses and a challenge computed from public values is accepted for any message, unless one challenge is zero. Every ring that Sign makes with at least one mixin contains the zero value, so anyone can sign any message for the ring of an honest signature.", "quantifier": "all messages, keys, ring sizes, positions and responses", "why_tests_cant": "a forgery for every ring and message; tests only verify honest signatures", "anchors": ["ringsig/blsag/blsag.go: Sign, Verify, computeCLR"]}
{"id": "C97", "title": "An accepted ring signature cannot be rotated (violated)", "statement": "Expected: an accepted signature cannot be changed into a different accepted one. For MLSAG (two or more members) and bLSAG, rotating keys and responses by any number of places, with the challenge at the new first member instead of the old one, gives an accepted signature of the same message with the same key images.", "quantifier": "all accepted signatures, ring sizes and rotations", "why_tests_cant": "all signatures and rotations at once", "anchors": ["mlsag/mlsag.go: Verify", "ringsig/blsag/blsag.go: Verify"]}
{"id": "C98", "title": "Verify of a range proof is independent of concurrent calls of Prove (violated)", "statement": "The outcome of Verify is determined for all values of the package variable M it may read at its six places (one for each helper; C106 covers changes inside a helper): an error if the second, third or fourth differs from the first or the proof has not the rounds for it; a panic if the last exceeds the number of commitments; otherwise the verdict of the equation with the constant for the fifth and the first commitments only. If all calls of Prove have the same power-of-two number of values as M at the start, every call of Verify has the outcome it has alone, in every interleaving. Expected always: but a call of Prove on another number of values starting after the first read makes Verify return an error for every proof, and one starting before the last read makes Verify panic on an honest proof.", "quantifier": "all proofs, coins, values read, schedules and numbers of calls", "why_tests_cant": "all interleavings of any number of calls; data races are not observed by sequential tests", "anchors": ["rangeproof/rangeproof.go: Verify, megacheckWithC, sumZMTwoN, computeDelta, Prove"]}
{"id": "C99", "title": "An accepted aggregated proof shows that all commitments are in range (violated while Prove runs)", "statement": "Expected: Verify does not accept a proof one of whose commitments is an arbitrary point. For any values in range, fewer than the power of two m, and arbitrary points in place of the remaining commitments, there is a proof that Verify accepts for every coin if a call of Prove on as many values starts between its fifth and sixth access of M. Undisturbed, Verify accepts this proof iff the weighted sum of the arbitrary points is zero.", "quantifier": "all values in range, numbers of values, arbitrary points, prover and verifier coins, states of other calls", "why_tests_cant": "needs one particular interleaving and an adversarial proof", "anchors": ["rangeproof/rangeproof.go: Verify, megacheckWithC, Prove"]}
{"id": "C100", "title": "innerproduct.Generate reports unsuitable lengths with an error (violated)", "statement": "For a power of two g >= 2 of points G and all lengths a, b, h, f of the other slices below 2^32: Generate succeeds iff a = b = h = g and f >= g; it panics iff a = g, b > g/2 and either f < b - g/2, or b = g, h > g/2 and f < g; otherwise it returns an error. With one point it returns the last elements of a and b whatever the other arguments, and panics iff a or b is empty. With no point it never succeeds, and panics iff a is empty and either b and H are empty too, or there are fewer factors than elements of b. Expected but violated: an error, never a panic.", "quantifier": "all lengths and contents of the five slices", "why_tests_cant": "every combination of five lengths", "anchors": ["rangeproof/innerproduct/innerproduct.go: Generate", "rangeproof/vector/vector.go: SplitScalars, SplitPoints, InnerProduct, Exp"]}
{"id": "C101", "title": "Prove under concurrent calls returns the honest proof or an error (violated: it may panic)", "statement": "For all values of the package variable M that Prove (without debug) may read, one for each helper called (C104 covers changes inside a helper): if it returns a proof, it is the honest prover's for the values padded to the number of commitments in it, and Verify alone accepts it if the values are in range and no challenge is zero. It returns an error unless the reads before the polynomial all equal the number m of padded values (the first pedersen vector may be shorter), m is a power of two, and no challenge is zero; then it returns the proof iff the last read is m and the one before is at least m; it panics iff the factors are too few. Expected but violated: no panic; a call on fewer than half as many values starting before the last two reads crashes Prove.", "quantifier": "all values, coins, values read, schedules and numbers of calls", "why_tests_cant": "all interleavings of any number of calls; data races are not observed by sequential tests", "anchors": ["rangeproof/rangeproof.go: Prove, computeA, computeS", "rangeproof/poly.go: computePoly", "rangeproof/innerproduct/innerproduct.go: Generate"]}
{"id": "C102", "title": "Concurrent calls on the same number of values do not disturb each other", "statement": "With every single access of the package variable M a step of its own: any number of calls of Prove, all on the same power-of-two number (up to 16) of values, which is also M at the start, and any calls of Verify: in every interleaving M stays as it is and every call that ends has the result it has alone. A call of Prove or Verify running alone has the result of the sequential model.", "quantifier": "all numbers of calls, values, debug flags, coins, proofs and schedules", "why_tests_cant": "all interleavings at the granularity of single accesses", "anchors": ["rangeproof/rangeproof.go: Prove, Verify, computeA, computeS, sumZMTwoN", "rangeproof/poly.go: computePoly"]}
{"id": "C103", "title": "The helper vectors are complete (violated while M changes)", "statement": "While M changes, the helper computing z^2 2^n, z^3 2^n, ... returns exactly the vectors for some number of values from which any elements after the first 64 may be missing; it never returns an error and may always panic. The blinding vectors are exactly those of which any number of elements, but not the first 64, are zero. Every result a call has for any values read is reached in some execution together with calls of Prove on other numbers of values.", "quantifier": "all values of M at every single read, all coins and challenges, all schedules", "why_tests_cant": "needs interleavings inside a loop", "anchors": ["rangeproof/rangeproof.go: sumZMTwoN, computeS"]}
{"id": "C104", "title": "A proof returned by Prove is accepted by Verify (violated while M changes)", "statement": "The proofs that Prove (without debug) returns while M changes are exactly: the prover's for the values padded to a power of two, with the blinding scalars from some index on replaced by zero, and with any elements after the first 64 of the vector z^2 2^n, z^3 2^n, ... missing from r0. The equation for Verify to accept such a proof is given. Expected but violated: for two or more padded values, some interleaving makes Prove return a proof that Verify, undisturbed, rejects for all its random scalars but at most one.", "quantifier": "all values, coins, reads, schedules and numbers of calls", "why_tests_cant": "needs an interleaving inside a loop of a helper", "anchors": ["rangeproof/rangeproof.go: Prove, sumZMTwoN, computeS, Verify", "rangeproof/poly.go: computePoly"]}
{"id": "C105", "title": "An accepted proof hides all bits (violated while M changes)", "statement": "Expected: Prove blinds every bit. Some interleaving makes Prove return, for any values in range, a proof that Verify accepts for every random scalar and whose blinding vectors are zero from the 65th element on: it is the honest proof for such blinding scalars.", "quantifier": "all values in range, coins and numbers of padded values", "why_tests_cant": "the proof is accepted, so no test notices", "anchors": ["rangeproof/rangeproof.go: Prove, computeS"]}
{"id": "C106", "title": "Verify decides by the proof alone (violated while M changes, exact outcomes)", "statement": "While M changes, Verify accepts exactly the proofs satisfying the equation with the constant for any number of values, any number of first commitments, and any elements after the first 64 missing; it panics exactly on proofs without inner product proof and on those whose inner product proof has the rounds for some number of values; every proof with an inner product proof may be refused. Each outcome is reached in some interleaving with calls of Prove, and none other.", "quantifier": "all proofs, coins, values at every single read of M, schedules", "why_tests_cant": "all interleavings at the granularity of single accesses", "anchors": ["rangeproof/rangeproof.go: Verify, megacheckWithC, sumZMTwoN, Prove"]}
{"id": "C107", "title": "An MLSAG signature reveals nothing but its ring and its images", "statement": "For given secrets, decoys, message and shuffle, and whatever the hash functions are: the signatures that Prove can return are exactly the signatures of the same shape (message, ring, numbers of responses) that Verify accepts with the returned images, and each of them is returned for exactly one choice of the nonces and of the other members' responses; so with uniform choices all accepted signatures are equally likely, |F|^(members * keys) in number. Two signers with the same images in the same ring of keys return the same signatures.", "quantifier": "all secrets, decoys, messages, shuffles, hash functions, fields", "why_tests_cant": "a statement about the distribution of all signatures", "anchors": ["mlsag/mlsag.go: prove, Verify", "mlsag/proof.go: shuffleSet"]}
{"id": "C108", "title": "A bLSAG signature reveals nothing but its ring, its image and the signer's position (violated: the first response)", "statement": "For a given key, message, number of mixins and position of the signer: the signatures that Sign can return are exactly the signatures of that shape that Verify accepts, and each is returned for exactly one choice of the nonce and of the responses of the members other than the first and the signer. The property that these do not depend on the signer's position fails: the first response is always zero when the signer is not at the first position, and there it is zero for exactly one nonce; so in a ring of n members there are |F|^n signatures of a signer at the first position and only |F|^(n-1) for each other position, and the first response tells whether the signer is first.", "quantifier": "all keys, messages, mixins, positions, hash functions, fields", "why_tests_cant": "a statement about the distribution of all signatures", "anchors": ["ringsig/blsag/blsag.go: Sign, Verify"]}
{"id": "C109", "title": "The key image of an accepted MLSAG signature is that of a ring member (violated)", "statement": "Expected: whoever holds the secret keys of a ring member can only sign with that member's key images, so that signing twice is noticed. The images are no input of the hash, and members without responses are ignored. Hence the holder of one member's secret keys can choose nonces and points d first and the images after the challenge: for every ring starting with any positive number of copies of this member and continuing with any other members, Verify accepts the images x Hp(xG) + d/c; for d different from zero this is not the member's image.", "quantifier": "all secret keys, nonces, points, messages, rings, hash functions (with a non-zero challenge)", "why_tests_cant": "the accepted signatures are not produced by the package's own Prove", "anchors": ["mlsag/mlsag.go: Verify, generateChallenge"]}
{"id": "C110", "title": "MLSAG key images link signatures, if two ring members have different images", "statement": "If the hash to scalars answers with independent uniform scalars: every attacker that asks Q hash values, without any bound on its computation, and then chooses message, ring (among p published key vectors, with responses for at most n members, two of which have different images) and images, makes Verify accept images that are not those of one member with probability at most m (p^2 m^2 + p^2 + 1)/|F|, where m = Q + n.", "quantifier": "all attackers, numbers of questions, published keys, numbers of images, ring sizes, finite fields", "why_tests_cant": "a probability over all hash functions and all attackers", "anchors": ["mlsag/mlsag.go: Verify, generateChallenge"]}
{"id": "C111", "title": "bLSAG key images link signatures (violated for rings of copies of one key; bounded otherwise)", "statement": "Expected: the image in an accepted bLSAG signature is that of a member of its ring. For rings consisting of copies of one key this fails: its holder gets signatures accepted with images x Hp(xG) + d/c. For rings of group elements with two different images, and a hash answering with independent uniform scalars, every attacker asking Q hash values succeeds with probability at most m (p^2 m^2 + p^2 + 1)/|F|, where m = Q + n, p is the number of published keys and n bounds the size of the ring.", "quantifier": "all keys, nonces, points, messages, attackers, ring sizes, finite fields", "why_tests_cant": "a probability over all hash functions and all attackers", "anchors": ["ringsig/blsag/blsag.go: Verify, computeCLR"]}
{"id": "C112", "title": "MLSAG signatures cannot be forged without the secret keys, up to discrete logarithms", "statement": "If the hash to scalars answers with independent uniform scalars and the published key vectors are Y_j + a_j G with known offsets a_j: an attacker that asks Q hash values (computing without bounds, seeing no signatures) and then makes Verify accept with probability e, for a message, images and a ring among the published vectors of its choice, gives the discrete logarithms of all Y_j when it is rerun with fresh answers from some point on: an explicit formula over what Verify computes in the two runs is correct with probability at least e^2/(Q+n)^2 - e/|F|.", "quantifier": "all attackers, numbers of questions, published keys, numbers of images and keys, ring sizes n > 1, finite fields", "why_tests_cant": "a probability over all hash functions and all attackers", "anchors": ["mlsag/mlsag.go: Verify, generateChallenge"]}
{"id": "C113", "title": "bLSAG signatures for rings of published keys cannot be forged without a secret key, up to discrete logarithms", "statement": "As C112 for bLSAG and rings of published group elements Y + a G: an attacker that makes Verify accept with probability e gives the discrete logarithm of Y when it is rerun, with probability at least e^2/(Q+n)^2 - e/|F|. (The rings made by Sign are not of this kind, see C30 and C96.)", "quantifier": "all attackers, numbers of questions, published keys, ring sizes n > 1, finite fields", "why_tests_cant": "a probability over all hash functions and all attackers", "anchors": ["ringsig/blsag/blsag.go: Verify, computeCLR"]}
{"id": "C114", "title": "Range proofs are sound against provers that use the hash function, up to relations between the generators", "statement": "If the hash to scalars answers with independent uniform scalars: a prover asks Q hash values, computing without bounds, and says for every point that it sends to the hash how the point is composed of the public points; then it outputs a proof. Whenever Verify accepts the proof, and the compositions of its points are right, they open all commitments to values below 2^64, or they give a non-trivial relation between the public points, except with probability at most T (3 + 3T + 3T(T+1)(128 m^2 + 1280 m k + 1665 m + 2k + 12))/|F|, where T = Q + k + 5, m is the number of values and 2^k = 64 m. In particular no order in which the prover asks for the challenges helps it, and nothing depends on the points of the inner product argument being hashed separately from the rest.", "quantifier": "all provers, numbers of questions, numbers of values with 64 m = 2^k < 2^32, generators, finite fields", "why_tests_cant": "a probability over all hash functions and all provers", "anchors": ["rangeproof/rangeproof.go: Verify, megacheckWithC, computeYAndZ, computeX, computeHprime", "rangeproof/innerproduct/innerproduct.go: VerifScalars"]}
{"id": "C115", "title": "Signatures for messages of the attacker's choice do not help to forge MLSAG signatures", "statement": "If the hash to scalars answers with independent uniform scalars: users hold vectors of d secret keys each. An attacker makes T steps, computing without bounds; in each it asks for a hash, or asks a user of its choice to sign a message of its choice among decoys (at least one, fewer than w, d keys each) and in an order of its choice, and the user signs with Prove, with uniform nonces and responses. Then it outputs a signature over published key vectors for a message of which no signature was requested. If Verify accepts with probability \u03b5, then a simulator, given the public keys and key images and no secret key, makes the same attacker forge with probability at least \u03b5 - T^2 w/|F|, and rerunning the simulator gives the discrete logarithms of the published keys with probability at least (\u03b5 - T^2 w/|F|)^2/(T w + n)^2 - 1/|F|. This holds with or without the last key image skipped. The simulator does not need the key images if it chooses the hash to points: every hash to points is b -> eta(b) G for exactly one eta, and with eta the images follow from the public keys.", "quantifier": "all attackers, users' keys, numbers of steps, requests, ring sizes, key vector lengths, skip flags, finite fields", "why_tests_cant": "a probability over all hash functions, nonces and attackers", "anchors": ["mlsag/mlsag.go: prove, Verify, generateChallenge, calculateKeyImages", "mlsag/proof.go: AddSecret, AddDecoy, shuffleSet"]}
{"id": "C116", "title": "MLSAG: nobody can be framed by a signature with their key images", "statement": "If the hash to scalars answers with independent uniform scalars: (1) Key images fixed in advance are accepted by Verify for a ring without a member that has them with probability at most p (Q+n)^2/|F|, for an attacker asking Q hash values, computing without bounds and choosing the ring, of at most n members, among p published key vectors; this holds also for rings whose members all have the same images. (2) An attacker as in C115 sees signatures of the users for messages of its choice and then outputs a signature for another message with the key images of user u, over any ring of p published key vectors, its own ones included, no other of which has these images. If Verify accepts with probability \u03b5, then rerunning the simulator, which has no secret key, gives the discrete logarithms of the keys of user u with probability at least (\u03b5 - \u03b4)^2/m^2 - 1/|F|, where m = T w + n and \u03b4 = (T^2 w + p m^2)/|F|.", "quantifier": "all attackers, users, keys, images, numbers of steps, requests, ring sizes, key vector lengths, skip flags, finite fields", "why_tests_cant": "a probability over all hash functions, nonces and attackers", "anchors": ["mlsag/mlsag.go: prove, Verify, generateChallenge, calculateKeyImages", "mlsag/proof.go: AddSecret, AddDecoy, shuffleSet"]}
{"id": "C117", "title": "MLSAG: key images link signatures also for attackers that have seen signatures", "statement": "If the hash to scalars answers with independent uniform scalars: an attacker as in C115 sees signatures of the users for messages of its choice and then outputs a signature for another message over a ring of p published key vectors, its own ones included, two of which have different images. Verify accepts images that belong to no member of the ring with probability at most (T^2 w + m (p^2 m^2 + p^2 + 1))/|F|, where m = T w + n. So a member who has signed, and whoever colludes with it, cannot sign again under a fresh image.", "quantifier": "all attackers, users, keys, numbers of steps, requests, ring sizes, key vector lengths, skip flags, finite fields", "why_tests_cant": "a probability over all hash functions, nonces and attackers", "anchors": ["mlsag/mlsag.go: prove, Verify, generateChallenge, calculateKeyImages", "mlsag/proof.go: AddSecret, AddDecoy, shuffleSet"]}
{"id": "C118", "title": "DualKey: an accepted signature shows that the subtracted commitment has the value of a ring member (violated for values that are not range checked)", "statement": "The members of a DualKey ring are a key and the difference C - C' of two Pedersen commitments (SubCommToZero). If the hash to scalars answers with independent uniform scalars: an attacker as in C115 chooses the ring, the old commitments C and the new commitment C' in the end, with known openings, such that C and C' have different values below 2^64 for every member. If Verify accepts with probability \u03b5, then rerunning the simulator gives the discrete logarithm of the value base of package pedersen with respect to the blinding base with probability at least (\u03b5 - T^2 w/|F|)^2/(T w + n)^2 - 2^65/|F|. The same holds for every column of the keys and every known set of coefficients. Without the bound on the values it fails: whoever owns the first key of a member gets a signature accepted, for a ring of this member only, for a commitment C' with a different value that they know how to open, for every hash function that does not answer with zero.", "quantifier": "all attackers, rings, openings, numbers of steps, requests, finite fields; for the violation all keys, commitments, messages and nonces", "why_tests_cant": "a probability over all hash functions, nonces and attackers", "anchors": ["mlsag/dualkey.go: SubCommToZero, SetCommToZero, Prove", "mlsag/mlsag.go: Verify, generateChallenge", "rangeproof/pedersen/pedersen.go: New, CommitToScalar"]}
{"id": "C119", "title": "Decode through any pointer never panics; on nil it reads nothing (violated: what Commitment.Decode leaves)", "statement": "For each of the six Decode methods (mlsag Signature, PubKeys, Responses; rangeproof Proof; innerproduct Proof; pedersen Commitment), every pointer, nil included, and every stream: the call returns, with or without an error, and does not panic. On nil it returns the same error whatever the stream is, and allocates nothing. On a pointer that is not nil, PubKeys.Decode and Responses.Decode append the elements that they can read, at most as many as asked for, also when they fail, and succeed exactly when all are there; the mark of a decoy stays. Commitment.Decode replaces the value as soon as 32 bytes are read, even if they encode no point, and (violated: a decoded commitment carries no secrets) it always keeps the blinding factor that was there before.", "quantifier": "all pointers, receivers, streams, chunkings, counts", "why_tests_cant": "all streams and receivers", "anchors": ["mlsag/pubkeys.go: Decode", "mlsag/responses.go: Decode", "mlsag/mlsag.go: Signature.Decode", "rangeproof/rangeproof.go: Proof.Decode", "rangeproof/innerproduct/innerproduct.go: Proof.Decode", "rangeproof/pedersen/pedersen.go: Commitment.Decode"]}
{"id": "C120", "title": "bLSAG: nobody can be framed by a signature with their key image", "statement": "If the hash to scalars answers with independent uniform scalars: an attacker asks Q hash values, computing without bounds, and chooses message and ring, of at most n >= 2 members, single members included, among p published keys. (1) An image fixed in advance is accepted by Verify for a ring without a member that has it with probability at most p (Q+n)^2/|F|; this holds also for rings in which all members have the same image, where C111 does not apply. (2) If Verify accepts the image of the key xG, the only published key with this image, with probability e, then rerunning the attacker gives the discrete logarithm of xG with probability at least (e - d)^2/(Q+n)^2 - 1/|F|, where d = p (Q+n)^2/|F|.", "quantifier": "all attackers, keys, images, numbers of questions, ring sizes, finite fields", "why_tests_cant": "a probability over all hash functions and attackers", "anchors": ["ringsig/blsag/blsag.go: Verify, computeCLR"]}
{"id": "C121", "title": "A signature accepted for two messages shows a collision of the hash (violated: the message is not delimited)", "statement": "For every hash to scalars: if mlsag's Verify accepts two signatures with the same challenge, in particular one signature with two messages, and the same number of points is hashed last, then the messages are equal or the two byte strings that Verify hashes last, which can be computed from the signatures, differ and have the same hash. For bLSAG's Verify the same holds without the condition on the number of points. VerifyUnsafe of package bls accepts one signature for two messages under the key of a nonzero secret exactly if the digests of the messages are equal modulo the group order, and under two keys for one message only if their secrets are equal modulo the group order. Violated: MLSAG does not delimit the message from the points after it, so that anybody turns an accepted signature by one member with at least two keys into an accepted signature for a longer message by the member's other keys.", "quantifier": "all signatures, messages, rings, images, hash functions, keys; for the violation all signatures of one member", "why_tests_cant": "all pairs of messages and all hash functions", "anchors": ["mlsag/mlsag.go: Verify, generateChallenge", "ringsig/blsag/blsag.go: Verify, computeCLR", "bls/bls.go: VerifyUnsafe, verify, h0"]}
{"id": "C122", "title": "The repository's own tests hold for all values, keys and nonces, up to named hash collisions (violated: Checksum identifies the data)", "statement": "(TestMLSAGBadSig) For every set of secrets and decoys for which prove succeeds, the signature with another message put into it makes mlsag's Verify return an error, or the two strings hashed last are a collision of the hash to scalars. (blsag TestVerify) Verify accepts what Sign returns for its message, and for every other message returns false, or the strings hashed last are a collision. (bls TestSignVerify) For a nonzero secret, VerifyUnsafe accepts the signature, returns an error for another message exactly if the digests differ modulo the group order, and under the key of another secret, if the order does not divide the digest, exactly if the secrets differ modulo the group order. (TestDelta, TestComputeT0) For all y, z, numbers of bits and of values, computeDelta is (z - z^2) sum y^i - sum z^(j+3) sum 2^i, and computeT0 adds the sum of z^(j+2) v_j. Violated: a checksum accepted by CompareChecksum belongs to one byte string only; with xxHash64 the checksum of the bytes 00 41 d9 is accepted for 00 c1 cc.", "quantifier": "all secrets, decoys, nonces, messages, hash functions; all field elements and numbers of bits and values", "why_tests_cant": "the tests try a few values, and pass or fail at random where they draw messages at random", "anchors": ["mlsag/mlsag.go: Verify, prove", "ringsig/blsag/blsag.go: Sign, Verify", "bls/bls.go: GenKeyPair, UnsafeSign, VerifyUnsafe", "rangeproof/poly.go: computeDelta, computeT0", "hash/hash.go: Checksum, CompareChecksum"]}
{"id": "C123", "title": "What rangeproof.Verify computes is bounded by the size of the proof (violated: exponential; and by earlier failed calls)", "statement": "Counting the scalars that Verify writes into slices, the multiplications of points and the generators it computes, with M = m and 64 m below 2^32: for an inner product proof with k rounds where 2^k = 64 m, Verify writes 707 m + 4 k + 67 scalars, and 64 m more unless the challenge z is zero, makes 129 m + 2 k + 8 multiplications (fewer if commitments are missing and it panics) and computes 128 m generators. For every other number of rounds k below 32 it returns an error without a multiplication, but (violated) only after writing 5*2^k + 4 k scalars: for every k below 32 a proof of 292 + 64 k bytes that Decode accepts does this, for k = 31 these are 2276 bytes and 10737418364 scalars of 32 bytes. With 32 rounds or more the count 2^k wraps to zero and 4 k + 5 scalars are written, with different numbers of L and R none. Violated: the work of Verify does not depend on earlier calls; a Prove on n > 16 values fails and leaves M = n, and every following Verify computes 128 n generators.", "quantifier": "all proofs, all M with 64 M below 2^32, all random scalars, all groups", "why_tests_cant": "all numbers of rounds; the largest ones cannot be run", "anchors": ["rangeproof/rangeproof.go: Verify, megacheckWithC, Prove", "rangeproof/innerproduct/innerproduct.go: VerifScalars, Decode"]}
{"id": "C124", "title": "Merkle trees can be built and verified by several goroutines at once (violated for slices with spare capacity)", "statement": "If every slice returned by CalculateHash has capacity equal to length, then any number of goroutines may call NewTree, VerifyTree and VerifyContent at the same time on payloads and trees they share: under every interleaving of their memory accesses no existing array is written and every call that returns has the right answer. With spare capacity this fails, also for the functions that should only read: VerifyTree and VerifyContent overwrite the payload's bytes behind the hash; VerifyTree rejects a tree that NewTree has just built with the right root; a concurrent NewTree returns the root of another call's payloads; a concurrent VerifyTree returns false for a correct tree.", "quantifier": "every memory layout, every list of calls, every schedule, of any length", "why_tests_cant": "the outcome depends on capacities, aliasing and the interleaving; a race detector sees single executions", "anchors": ["merkletree/merkletree.go: VerifyNode, CalculateNodeHash, VerifyTree, VerifyContent (append to slices returned by CalculateHash)", "merkletree/merkletree.go: createIntermediate"]}
{"id": "C125", "title": "One Pedersen value can be used by several goroutines (violated while bases are missing)", "statement": "While any number of goroutines call CommitToVectors and BaseVector.Compute on one Pedersen value, the bases it had at the start stay in place, and every commitment whose first vector needs no more than these is the one of a call alone; if that holds for all calls nothing is written. Otherwise this fails, because missing bases are computed on demand without synchronisation: two computations can leave the same base twice, after which commitments with this value do not bind (any amount can be moved between the two entries); a commitment to two scalars can use one base for both; and since the number of bases is read twice, a commitment can compute the difference as a negative number and ask, as a uint32, for more than four thousand million bases.", "quantifier": "all values, seeds, vectors, numbers of goroutines and schedules", "why_tests_cant": "depends on the interleaving of single reads and writes of a field", "anchors": ["rangeproof/pedersen/pedersen.go: commitToScalars (len(p.BaseVector.Bases) read twice), CommitToVectors", "rangeproof/generators/generator.go: Compute, Iterate"]}
{"id": "C126", "title": "A relation between the generators gives a discrete logarithm, if Point.Derive is a random oracle; so commitments bind and range proofs are sound up to discrete logarithms", "statement": "Let Point.Derive be a uniformly random function in which the discrete logarithm of a given point X = xB is hidden: on every string it is aB + bX for two coins a, b. The points seen are then uniform for every x. For every attacker that sees all the points, without bound on its computations: if it finds a nontrivial relation between the base point B, the value base and the 2n generators of the range proofs, which are hashed from each other in two chains, then x is computed from the relation and the coins, except for a fraction of at most ((2n+1)^2+1)/l of all coins. Consequently two openings of one commitment of CommitToScalar give x except for a fraction of 2/l, two openings of one commitment of CommitToVectors to two vectors of length n except for the fraction above; and if Scalar.Derive is a random oracle as well, then for every prover asking Q questions that makes Verify accept a proof for m = 2^k/64 values, and says how it computes its points from the public ones, either its commitments are opened to values below 2^64 or x is found, except for a fraction of ((Q+k+5) c + (128m+1)^2 + 1)/l with the explicit c of C114.", "quantifier": "all attackers, all numbers of values and questions, all x, all coins (counted)", "why_tests_cant": "statements about all attackers and about fractions of 2^504 coins", "anchors": ["rangeproof/generators/generator.go: Iterate, Compute", "rangeproof/pedersen/pedersen.go: New, CommitToScalar, CommitToVectors", "rangeproof/rangeproof.go: Verify"]}
{"id": "C127", "title": "MLSAG signatures reveal no more about the signer than the key images do", "statement": "An observer chooses messages and rings, and asks pseudonyms for signatures; which member of the ring is behind a pseudonym is hidden. The observer also asks for hashes, T steps in all. With the hash to scalars as a random oracle: whatever it concludes from the signatures that Prove makes, it concludes with the same probability, up to (T w)^2/l for rings of at most w members, from signatures made of random numbers, the ring and the key images, without secrets and without a signer. So if it tells apart two assignments of users to pseudonyms, it tells apart their key images, given the public keys; or tells key images of random keys from random points (decisional Diffie-Hellman for the bases B and H(K)). The encoding of a signature does not depend on the decoy marks. Violated: the Signature value that Prove returns still carries the marks, in a private field, and exactly the signer is not marked as a decoy.", "quantifier": "all observers (deciding adaptively), users, secrets, rings, messages, numbers of steps and keys per member", "why_tests_cant": "That no computation on signatures finds the signer is a statement about all algorithms; tests can try single ones.", "anchors": ["mlsag/mlsag.go:142-259", "mlsag/mlsag.go:340-419", "mlsag/proof.go:31-91", "mlsag/pubkeys.go:11-42"]}
{"id": "C128", "title": "Signatures and proofs stay safe when the random numbers are known or repeat (violated)", "statement": "No function tests the numbers that Rand returns. If the nonces of an MLSAG signature, or alpha of a bLSAG signature, are known (for instance zero), everybody computes the secrets from the published signature: x = (nonce - response)/challenge. If all random numbers are zero the signer's responses are also the only ones that are not zero. Two signatures with the same secrets and the same nonces reveal the secrets, unless their challenges agree. If the numbers of computeS are zero, a range proof reveals a linear combination of the values with public coefficients, and of a single value the value itself, whatever the blinding factors. Commitments with equal blinding factors are equal exactly if the values are.", "quantifier": "all rings, messages, secrets, values and random numbers, with non-zero (different) challenges", "why_tests_cant": "Tests draw random numbers from the working generator; the consequences of a bad one concern all signatures.", "anchors": ["mlsag/mlsag.go:142-259", "mlsag/mlsag.go:305-340", "ringsig/blsag/blsag.go:25-110", "rangeproof/rangeproof.go:45-240", "rangeproof/pedersen/pedersen.go:150-200"]}
{"id": "C129", "title": "MLSAG hides the signer if the decisional Diffie-Hellman problem is hard", "statement": "Both hash functions are random oracles. m users have d random secrets each. An observer knows all public keys and the whole hash to points, asks for hashes to scalars, and asks pseudonyms for signatures of messages for rings of its choice, T steps in all, rings of at most w members. It learns the signatures made by Prove and their key images. In two worlds the users stand behind the pseudonyms in different orders. The probabilities with which the observer says yes differ by at most 2 (T w)^2/l plus the sum of the advantages of 2 m v explicit players of the decisional Diffie-Hellman game (v images per signature), each of which runs the observer once, with signatures made of random numbers.", "quantifier": "all observers (deciding adaptively), numbers of users, keys, steps and ring sizes, pairs of orders, secrets, tables and coins (counted)", "why_tests_cant": "A statement about all algorithms that look at signatures, relative to a hardness assumption.", "anchors": ["mlsag/mlsag.go:142-259", "mlsag/mlsag.go:340-419", "mlsag/proof.go:31-91"]}
{"id": "C130", "title": "The functions of package merkletree hash every payload once (violated by VerifyTree and VerifyContent)", "statement": "A successful NewTree calls CalculateHash exactly once per payload and Sha3256 once per inner node (between leaves-1 and leaves-1+height); if the payload at position k is the first that fails, k+1 payloads have been asked and no Sha3256 computed. VerifyTree of a tree with n leaves, after any calls of the package, calls CalculateHash 2^ceil(log2 n) times (less than 2n, but 2^(k+1) times for 2^k+1 payloads) and Sha3256 once less. VerifyNode on k+1 nodes linked by the caller asks one payload 2^k times. On nodes linked in any way and with payloads that fail or panic, VerifyNode has computed one Sha3256 less than it asked payloads when it returns a hash, and none or fewer than that when it fails or panics. VerifyContent calls CalculateHash 2(k+1)+2 times and Sha3256 3h-2 times if the data is first found at position k in a tree of height h, and CalculateHash twice per leaf if it is not found.", "quantifier": "all payload lists, payload types and hash methods, all reachable trees, all k", "why_tests_cant": "Tests use trees of a handful of payloads and do not count calls.", "anchors": ["merkletree/merkletree.go:38-63", "merkletree/merkletree.go:66-149", "merkletree/merkletree.go:177-243"]}
{"id": "C131", "title": "The points of an accepted range proof determine its scalars", "statement": "Take two range proofs with the same points (commitments, A, S, T1, T2 and the folding points) which Verify both accepts, and let no challenge that is inverted be zero. Then the difference of their scalars (t, taux, mu and the two scalars of the inner product proof) gives two explicit relations between the public generators, one of which is non-trivial unless the scalars are equal. So without a relation between the generators the scalars cannot be changed by anybody, the prover included; and if Point.Derive is a random oracle, whoever finds two such proofs finds a given discrete logarithm except with probability ((128 M + 1)^2 + 1) / |F|. The condition cannot be dropped: in a group whose logarithms are known, for all points and any t and b != 0 there are taux, mu and a such that Verify accepts.", "quantifier": "all pairs of proofs, all numbers of values M with 64 M = 2^k, k < 32, all groups and hash functions, all attackers", "why_tests_cant": "Malleability is the absence of a second accepted proof; tests can only try particular changes of a proof.", "anchors": ["rangeproof/rangeproof.go:327-493", "rangeproof/innerproduct/innerproduct.go:267-336"]}
{"id": "C132", "title": "One Apk or Signature can be aggregated into by several goroutines (violated: keys and signatures get lost)", "statement": "Apk.Aggregate, Apk.AggregateBytes, Signature.Aggregate, Signature.Add and Signature.AggregateBytes read and then write the receiver's point. Let any number of goroutines call one of them once each on one receiver. Calls that exclude each other add everything, in every order. Without this, at any time the point is the one at the start plus the summands of some set of calls, and the values possible after all calls have returned nil are exactly those with a non-empty set of calls: all other keys or signatures are lost without an error. If the keys in S and the signatures in T take effect, Verify accepts the aggregates only if the sums over S and T agree (times the digest of the message), so an aggregate of honest signatures is rejected.", "quantifier": "any number of goroutines, all keys, messages, initial values and schedules", "why_tests_cant": "Lost updates need a particular interleaving; a test rarely hits it, and cannot show which values are possible.", "anchors": ["bls/bls.go:230-249", "bls/bls.go:281-306", "bls/bls.go:350-367"]}
{"id": "C133", "title": "The base points of package bls generate groups of prime order", "statement": "With p and r the values of the Barreto-Naehrig polynomials at 1868033^3: both are prime. The two hexadecimal constants of the package are coordinates of a point of order r of y^2 = x^3 + 3 over the integers modulo p, and of a point of order r of the twist y^2 = x^3 + 3/(i+3) over the quadratic extension. The curve has exactly r points and each but the neutral one generates all of them, so a signature or hashed message that satisfies the equation needs no test of its order. The twist has points outside the group of order r, so public keys do need one, which the package leaves to Unmarshal of the library. All assumptions made about the pairing library hold together for these groups and coordinates.", "quantifier": "all points of the curve (about 2^256), all byte strings given to the decoder of the first group", "why_tests_cant": "The number of points of a curve and the order of a point are statements about 2^256 points; a test can multiply by r but not count.", "anchors": ["bls/bls.go:20-86"]}
{"id": "C134", "title": "Signing makes the same calls whatever the secret keys and the random choices are (violated by the search for the signer in package mlsag)", "statement": "Consider the sequence of calls to the curve library and the random number generators, with the lengths of what is hashed, and of the tests made in loops. For Sign of package blsag, and for Prove of package mlsag apart from the loop that looks for the signer in the shuffled ring, it is an explicit function of the number of members, keys and images and of the length of the message: secret keys, decoys, the position of the signer and all random numbers have no influence. The search tests exactly as many members as the position of the signer plus one, so whoever can count the tests learns the position which the ring is meant to hide. Verify of both packages makes a sequence that depends only on the numbers of keys, responses and images (a prefix of it if it panics), for accepted and rejected signatures.", "quantifier": "all secret keys, rings, messages, random choices, all states of a Proof on which Prove succeeds, all signatures", "why_tests_cant": "Timing tests sample a few keys on one machine; the sequence of calls for all keys and random numbers can only be proved.", "anchors": ["mlsag/mlsag.go:142-419", "mlsag/proof.go:31-110", "mlsag/dualkey.go", "ringsig/blsag/blsag.go:25-196"]}
{"id": "C135", "title": "Proving a range makes the same calls whatever the values are (violated by the branches taken for their bits)", "statement": "Consider the sequence of calls to the curve library made by rangeproof.Prove (without debug, running alone), with the lengths of what is hashed, and of the branches taken while a value is split into bits. Whenever Prove returns a proof the sequence is an explicit function of the number of values and of the 64 low bits of each. Without the branches it is the same for all values and all random choices; for 2^k values after padding it contains 770*2^k + 2k + 11 multiplications of points by scalars (781 for one value), derives 256*2^k + 4 points and draws 129*2^k + 4 scalars. The branches are the bits of the values in order: two calls for as many values in the range make the same sequence exactly if the values are equal, so whoever observes the branches learns the values which the proof hides. The functions of package vector that Prove uses make one operation per element, depending on the lengths alone (SubScalar and ScalarPowers also on whether the scalar is zero), and none if they fail.", "quantifier": "all lists of 1 to 16 values (in the range or not), all random choices, all groups and hash functions", "why_tests_cant": "Timing tests sample a few values on one machine; that nothing else depends on the values is a statement about all of them.", "anchors": ["rangeproof/rangeproof.go:45-293", "rangeproof/bitCommitment.go:17-51", "rangeproof/poly.go:18-201", "rangeproof/innerproduct/innerproduct.go:25-263", "rangeproof/pedersen/pedersen.go:116-212", "rangeproof/vector/vector.go"]}
{"id": "C136", "title": "One DualKey can be used by several goroutines (violated: decoys get lost, and Prove signs with another message, ring or key, or panics)", "statement": "The methods of DualKey read and write its fields without synchronisation. Calls that exclude each other have the effects of calls one after another. Otherwise: (1) if any number of goroutines call AddDecoy once each, the rings possible after all calls have returned are exactly those extended by the decoys of any non-empty list of different goroutines, in any order; all other decoys are lost. (2) SetMsg during Prove: a signature is returned that carries the new message but signs the old one, and Verify rejects it unless two strings with the same hash are found. (3) AddDecoy during Prove: a signature is returned whose ring has one member more than it has responses, and Verify accepts it. (4) SetPrimaryKey(0) during Prove: the check that the key is not zero is passed, and an accepted signature with the identity as key image is returned. (5) Two calls of Prove, each of which succeeds alone: one can panic. (6) Two calls of SubCommToZero: both return although one commitment was subtracted from the first member only once and from all others twice.", "quantifier": "any number of goroutines, all states of a DualKey built by its methods on which Prove succeeds, all keys, messages and random choices; existence of a schedule for (2) to (6), exactly the reachable rings for (1)", "why_tests_cant": "Lost updates and changes between check and use need a particular interleaving; a test rarely hits it and cannot show which results are possible.", "anchors": ["mlsag/proof.go:31-95", "mlsag/dualkey.go:23-63", "mlsag/mlsag.go:142-259", "mlsag/pubkeys.go:65-67", "mlsag/privatekeys.go:7-9"]}
{"id": "C137", "title": "Aggregated keys resist keys made from the key of an honest user (violated: the coefficients do not depend on the set of keys)", "statement": "Let an attacker know the public key X = x g2 of an honest user and no signature, and aggregate X with keys a X + b g2 of its own, whose coefficients are the hashes t of the single keys. The signature c g1 is accepted for the aggregate and a message with hash d exactly if c = d (x sum(t a) + sum(t b)). So if sum(t a) is 0, the attacker computes accepted signatures of all messages without the secret, and otherwise an accepted signature gives away x. If SHA3-256 is a random oracle, an attacker that names at most n + 1 keys and asks T hashes wins without giving away x with probability at most T (n (T+1)^(n-1) + 1) (2^256/q + 1) / 2^256, q the order of the groups. On the other hand, from n lists of w keys X + b g2 one key each can be chosen such that the sum is 0, for all but a fraction of q / w^n of the hash functions: the number of keys named is not limited by the package, and about the n-th root of q keys per list suffice.", "quantifier": "all groups, secrets, attackers (unbounded computations), numbers of keys and hashes, messages", "why_tests_cant": "Rogue keys have to be found by search; a test with random keys never meets one, and cannot bound the chances of all attackers.", "anchors": ["bls/bls.go:97-105", "bls/bls.go:150-172", "bls/bls.go:212-249", "bls/bls.go:350-367"]}
{"id": "C138", "title": "One Tree can be rebuilt and verified by several goroutines (violated: honest trees are reported as wrong, trees get mixed, rebuilds are undone)", "statement": "The methods of Tree read and write Root, Leaves and MerkleRoot without synchronisation. For every schedule of any number of calls of RebuildTree, RebuildTreeUsing, VerifyTree and VerifyContent on one tree, with payloads that can be hashed: no call fails or panics, each VerifyContent answers exactly for one of the payload lists (the original one or one that some call builds from), and each VerifyTree compares the Merkle root of one list with that of perhaps another. (1) If RebuildTreeUsing runs between two reads of VerifyTree, VerifyTree answers false whenever the two Merkle roots differ, although the tree before and the tree after are right. (2) After any number of calls of RebuildTreeUsing have all returned nil, the tree can have the nodes of any of them, the leaves of any other and the Merkle root of any third; then VerifyTree answers false for good, or VerifyContent answers for data that does not belong to the Merkle root. (3) RebuildTree that read the leaves before RebuildTreeUsing replaced them puts the old tree back after it, and both return nil.", "quantifier": "any number of goroutines, all payload lists, hash functions and schedules; existence of a schedule for (1) to (3)", "why_tests_cant": "Mixed states need a particular interleaving of single assignments; tests rarely hit it and cannot show that nothing worse is possible.", "anchors": ["merkletree/merkletree.go:152-229"]}
{"id": "C139", "title": "A ring signature of one package is not valid in the other (violated: blsag signatures are mlsag signatures with one key per member)", "statement": "Packages blsag and mlsag hash the message and the same points in the same order, without naming the package. For rings of two members or more with one key each, one key image, and any message, challenge and responses: mlsag Verify accepts exactly if blsag Verify accepts. With one member mlsag Verify accepts exactly if blsag Verify accepts the member taken twice, so in particular if it accepts the member alone. Hence from every accepted blsag signature anybody writes down bytes that mlsag Decode accepts, and the result verifies for the same message, ring and key image. This holds for what blsag Sign returns without mixins and, the other way round, for what the prover of package mlsag returns for one secret and decoys of one key. The key images are the same in both packages: a blsag signature with the primary key of a DualKey carries the key image of that DualKey.", "quantifier": "all rings of group elements, keys, messages, challenges, responses and random choices, all readers", "why_tests_cant": "Each package is tested by itself; that all accepted signatures carry over is a statement about all rings and hash functions.", "anchors": ["ringsig/blsag/blsag.go:21-196", "mlsag/mlsag.go:67-110", "mlsag/mlsag.go:261-306", "mlsag/mlsag.go:340-389"]}
{"id": "C140", "title": "Objects written one after another to a stream can be read one after another, and sizes depend on counts only (violated for range proofs)", "statement": "A signature of package mlsag with m members of n keys is written as 40 + 32 m n bytes, with the keys 40 + 64 m n; for what the prover returns, m is the number of decoys plus one and n the number of secrets. A list of n commitments takes 4 + 32 n bytes. A range proof for n values, 2^k the least power of two that is at least n, takes 672 + 64 k bytes, with the commitments 676 + 64 k + 32 2^k; values, keys and random choices do not change a size. Any number of signatures, and any number of lists of commitments, written one after another are read back one after another, whatever follows and however the stream is delivered. Violated for range proofs: whatever follows a range proof, Decode reads all of it; it fails if the length of the rest is not a multiple of 32, and otherwise every further 64 bytes become two more points of the proof. So of any two proofs written with their commitments to one stream the first cannot be decoded, and without commitments decoding it swallows the second and Verify refuses the result.", "quantifier": "all signatures, proofs, values, random choices, streams and chunkings", "why_tests_cant": "Tests decode one object from a buffer that holds nothing else, and look at single sizes.", "anchors": ["mlsag/mlsag.go:20-110", "rangeproof/rangeproof.go:496-581", "rangeproof/innerproduct/innerproduct.go:394-466", "rangeproof/pedersen/pedersen.go:52-106"]}
{"id": "C141", "title": "An aggregated BLS signature is accepted only if every signature in it is valid (violated: exactly if the errors add up to zero)", "statement": "Call the error of a signature the amount by which the two sides of its verification equation differ. For any list of single signatures, valid or not, under any keys over messages with pairwise different digests: the result of UnsafeBatch is accepted by VerifyUnsafeBatch exactly if the errors add up to zero. So the order of the list does not matter, and if all but one of the signatures are valid, the aggregate is accepted exactly if the last one is valid. The same holds for Aggregate, AggregateApk and Verify on one message. Violated in general: in every list of valid signatures any two can be replaced by invalid ones, with any point other than zero added to one and subtracted from the other, and the aggregate is still accepted.", "quantifier": "all lists, keys, messages, signatures and points", "why_tests_cant": "Tests aggregate valid signatures only.", "anchors": ["bls/bls.go:214-240", "bls/bls.go:303-306", "bls/bls.go:365-386", "bls/bls.go:430-459", "bls/bls.go:490-517"]}
{"id": "C142", "title": "The Merkle root identifies the payloads (violated: exactly which lists share a root)", "statement": "Let the bottom of a tree of n payloads be the 2^d places, d the least number at least 1 with n <= 2^d, at which the payload hashes stand if every node without a partner is repeated on its level. Two lists of payloads have the same MerkleRoot whenever the bottom of the one is the level with as many places of the tree of the other; no property of the hash function is needed. Conversely, if payload hashes have 32 bytes, two lists with the same MerkleRoot are related in this way, or two different strings that are hashed while the two trees are built have the same SHA3-256 digest. If the payload hashes of each list are pairwise different and none is the digest of an inner node of the other tree, then the same MerkleRoot means the same list of payload hashes, or such a collision.", "quantifier": "all payload lists of any two lengths, all hash functions with digests of 32 bytes", "why_tests_cant": "Tests compare the root of a few fixed lists with a recorded value.", "anchors": ["merkletree/merkletree.go:66-149"]}
{"id": "C143", "title": "Merkle trees over payloads hashed with SHA3-256 have the same root only for the same payloads (holds without repeated and 64-byte payloads; violated with them)", "statement": "Let CalculateHash of a payload be SHA3-256 of a byte string. Two lists of payloads of any lengths, each without repetition and without a payload of 64 bytes, whose trees have the same MerkleRoot are equal, or two different strings that are hashed to build the trees have the same digest. So if SHA3-256 is a random oracle, whoever asks it m times, choosing every question with the help of the earlier answers, finds two different such lists with the same MerkleRoot, of whose trees everything has been asked, with probability at most m (m - 1) / 2^256. Violated with payloads of 64 bytes: any four payloads and the two payloads made by joining their digests in pairs have the same root. Violated with repetition: a list of odd length and the list with its last payload once more have the same root.", "quantifier": "all payload lists, all attackers, all numbers of questions", "why_tests_cant": "No test can search for collisions of SHA3-256 or quantify over attackers.", "anchors": ["merkletree/merkletree.go:66-149", "hash/hash.go:38-40"]}
{"id": "C144", "title": "One hash handle can be used by several goroutines (violated: exactly which digests they can get)", "statement": "For any number of goroutines that call PerformHash once each with one handle, Write and Sum being one step each: a choice of results is possible exactly if there is an order of the payloads such that every result is the digest of what the handle held before followed by the payloads up to some place of this order, not before the place of the payload of the call. So two goroutines can both get the digest of both payloads, which no order of the two calls gives. If writing to the handle fails, every call fails whatever the schedule is.", "quantifier": "all handles, payloads, numbers of goroutines and schedules", "why_tests_cant": "Tests use a handle in one goroutine.", "anchors": ["hash/hash.go:43-49"]}
{"id": "C145", "title": "Rings are ordered by random numbers that the time does not reveal (violated: at most 2^31 - 1 orders; the position repeats; Sign sets the generator of the whole program)", "statement": "mlsag seeds a math/rand generator with the second, blsag seeds the generator shared by the whole program with the nanosecond; by the documentation of math/rand only the remainder of the seed modulo 2^31 - 1 matters. Whatever the keys, messages and random scalars: the rings published by mlsag are among 2^31 - 1 orders, so with 13 or more members of different keys some orders are never published; if the time is known to be one of k seconds, the signer is at one of at most k positions that are computed from these seconds and the number of members alone; two blsag signatures made at times that differ by a multiple of 2^31 - 1 nanoseconds with equally many mixins have their signers at the same position. After blsag.Sign every number that the program draws from the shared generator is determined by the time and the number of mixins, whatever was seeded before. In several goroutines the position of each signer is drawn from the sequence of the time of some call, in some orders that of another call.", "quantifier": "all generators that meet the documentation, times, keys, messages, decoys, random scalars, numbers of goroutines and orders of steps", "why_tests_cant": "A test sees one time; which orders never occur and what an observer can compute is a statement about all times and generators.", "anchors": ["mlsag/proof.go:71-92", "ringsig/blsag/blsag.go:21-30", "mlsag/mlsag.go:142-259"]}
{"id": "C146", "title": "Objects of any size are encoded completely or an error is reported (violated from 2^32 elements on)", "statement": "The numbers of elements are converted to 32 bits without a test. With a multiple of 2^32 response vectors, mlsag Signature.Encode writes without error the bytes of a signature without responses, which Decode rejects; with other numbers above it writes all responses after a count from which Decode takes only the first ones, without error, and leaves the others in the stream. EncodeCommitments and DecodeCommitments do the same with commitments. innerproduct Proof.Encode writes only as many pairs of points as their number modulo 2^32, and Decode returns the shorter proof; proof and result agree exactly if there are fewer than 2^32 pairs. A vector commitment panics exactly if 2^32 or more bases are missing.", "quantifier": "all signatures, proofs, lists of commitments and scalars of any length, all writers and readers", "why_tests_cant": "Tests cannot allocate lists of 2^32 elements.", "anchors": ["mlsag/mlsag.go:20-110", "rangeproof/pedersen/pedersen.go:43-106", "rangeproof/pedersen/pedersen.go:116-152", "rangeproof/innerproduct/innerproduct.go:394-466"]}
{"id": "C147", "title": "How often honest range proofs and inner product proofs fail", "statement": "With the scalar hash function chosen uniformly at random among all functions, Prove called with 1 to 16 values below 2^64 returns a proof that Verify accepts, except with probability at most (10 + ceil(log2 n))/l, where n is the number of values and l the group order. With probability at least 1/l Prove returns an error. If one of the values is 2^64 or more, Prove without debug returns a proof that Verify accepts with probability at most (9 + n + ceil(log2 n))/l. An inner product proof for vectors of length 2^k that Generate makes is accepted by Verify except with probability at most k/l.", "quantifier": "all values, all random coins of the prover, all generators, all finite sets of hash inputs containing the strings of at most 800 (64 k) bytes, all functions on them", "why_tests_cant": "the probability is about 2^-248: no test ever sees a failing run, and no test distinguishes it from zero or from 2^-60", "anchors": ["rangeproof/rangeproof.go:69-258", "rangeproof/innerproduct/innerproduct.go:25-263", "rangeproof/fiatshamir/fiatshamir.go:12-36"]}
{"id": "C148", "title": "What signing and verifying in package bls costs: the sequence of library calls", "statement": "Sign makes the same calls (SHA3-256 of the message, one base multiplication, one multiplication, one encoding of the key, SHA3-256 of it, one multiplication) whatever the secret key is, and Verify the same calls with two pairings whether it accepts or not. A batch of n >= 1 messages with different digests and at least as many keys makes n + 1 pairings, n - 1 additions of pairing values and hashes every message twice, whether it is accepted or not. If a message repeats, only the messages up to the first repetition are hashed and nothing else is computed. An empty batch costs one pairing and then panics; with k < n keys, k >= 1, the n messages are hashed and k pairings are made before the panic. For all arguments, nil pointers included, there are at most n + 1 pairings. Aggregating n public keys hashes and multiplies every key once and adds n - 1 times; aggregating n signatures adds n - 1 times.", "quantifier": "all keys, messages, signatures, lists of any length, all secret keys, all pairing groups and hash functions", "why_tests_cant": "Tests see results; which operations are executed, and that their sequence does not depend on the secret key, is not observable from results.", "anchors": ["bls/bls.go:141-184", "bls/bls.go:214-259", "bls/bls.go:350-397", "bls/bls.go:430-539"]}
{"id": "C149", "title": "Commitments to values in range balance like the values (violated for commitments without range proof)", "statement": "If the points of two lists of commitments to values below 2^64, and a fee in the clear on one side, add up to the same point, then the values add up to the same number, or the blinding factors give the discrete logarithm of the value base with respect to the blinding base; for all lists whose totals cannot reach the group order l, which is exact: n values with n (2^64 - 1) >= l can have commitments that add up to the zero point. For two provers whose aggregated range proofs are accepted, the openings extracted from them (by rewinding) are below 2^64 and balance, or the extractor outputs a relation between the generators. Without range proofs the commitments to v and l - v cancel for every v.", "quantifier": "all lists of commitments, blinding factors, fees, seeds, all provers, all numbers of commitments up to the group order", "why_tests_cant": "Wrapping around the group order needs values or numbers of commitments that no test uses; extraction quantifies over provers.", "anchors": ["rangeproof/pedersen/pedersen.go:21-77", "rangeproof/rangeproof.go:69-258", "rangeproof/rangeproof.go:317-480"]}
{"id": "C150", "title": "Neutral elements are refused as keys (violated: they sign everything)", "statement": "UnmarshalPk, UnmarshalApk and NewApk accept the neutral element of the group as a public key. For it, Verify and VerifyUnsafe accept the neutral signature for every message, and no other signature. It is the only such key: if one signature is accepted for two messages whose digests differ modulo the group order, key and signature are neutral. Neutral keys in the list given to AggregateApk do not change the result, so their owner appears among the signers of whatever the others sign. VerifyBatch accepts a batch with a neutral key exactly if it accepts the batch without that key and its message, so that message is never checked. GenKeyPair returns the neutral key exactly if the library draws a multiple of the order. In package mlsag, signing with secret keys zero works: for any decoys and any message the signature is accepted for a ring that contains the vector of neutral keys, and its key images are all neutral; a key image is neutral only if the secret key is zero or the public key is hashed to the neutral element.", "quantifier": "all messages, signatures, lists of keys of any length with neutral keys at any positions, all batches with different digests, all decoys, dimensions and random choices", "why_tests_cant": "Tests use generated keys, which are never neutral, and check a few messages.", "anchors": ["bls/bls.go:113-133", "bls/bls.go:164-240", "bls/bls.go:364-386", "mlsag/proof.go:53-68", "mlsag/mlsag.go:142-306", "mlsag/mlsag.go:411-419"]}
{"id": "C151", "title": "A payment of dual-key signatures and commitments makes no value and spends no coin twice", "statement": "A coin is a key and a Pedersen commitment. Each input of a payment is signed with a DualKey whose ring has, for each coin, its key and its commitment less a new commitment (SubCommToZero); the new commitments add up to the commitments of the outputs and the fee times the value base. If the signer of every input can be rewound and the commitments open to values below 2^64, the values of the coins spent add up to those of the outputs and the fee, or openings and extracted secrets give the discrete logarithm of the value base. Inputs with different key images spend different keys. Conversely, with a new commitment to the same value under another blinding factor and at least one other coin, Prove returns a signature that Verify accepts for exactly this ring; with the same blinding factor Prove refuses; and with equal totals of values and blinding factors the commitments add up. The same holds if the outputs are the commitments of an accepted aggregated range proof of an extractable prover: the values extracted are below 2^64 and balance, or a relation between the public points of the range proof or the logarithm comes out.", "quantifier": "all numbers of inputs and outputs whose totals stay below the group order, all rings, messages, keys, values, fees, blinding factors and random choices", "why_tests_cant": "The tests sign for one ring and check acceptance; they never combine signatures, commitments and totals, and cannot rewind an adversary.", "anchors": ["mlsag/dualkey.go:16-63", "mlsag/mlsag.go:142-306", "mlsag/mlsag.go:340-388", "rangeproof/pedersen/pedersen.go:21-77"]}
{"id": "C152", "title": "Exp compares the number of scalars with N times M (violated: the product wraps)", "statement": "vector.Exp is meant to refuse fewer than N*M scalars. It returns the sum of all products exactly if there are as many scalars as points and N*M, brought into the range of a 64-bit integer by a multiple of 2^64, is at most this number; otherwise it returns an error and never panics. While the product is in range it is compared as a number, and so it is in all calls made by the repository. But for N = M = 2^32 every two lists of the same length are accepted, the empty ones included, and for N = -2^62, M = 3, whose product is negative, every list of fewer than 2^62 scalars is refused.", "quantifier": "all lists of scalars and points of any length and all integers N and M", "why_tests_cant": "The tests call Exp with N*M equal to the number of scalars.", "anchors": ["rangeproof/vector/vector.go:116-141", "rangeproof/debug.go:69-172", "rangeproof/rangeproof.go:353-493", "rangeproof/innerproduct/innerproduct.go:40-260"]}
{"id": "C153", "title": "What is hashed for one purpose is not what is hashed for another (violated)", "statement": "Generators, bases of key images and challenges are made with the same two derivation functions on strings without labels. A generator whose seed is the encoding of a base of another generator has the rest of the other's bases; a commitment to a vector under this seed is a commitment to the same vector behind zeros under the other. The base of a key image is the first generator of the key's encoding, so that a commitment to a secret key under this seed, less its blinding part, is the key image. The challenges y and x of any range proof and all challenges of any inner product proof are the challenges of ring signatures with one member on the bytes hashed before, for any response, and Verify accepts these. Conversely two chains of generators meet only if the seeds are equal, one is the encoding of a point of the other chain, or two different strings in them have the same derived point; for the seeds of the library only the last is left; a base of a key image is such a point only for the point before it as key, or with a collision; and a ring member with one key asks for a challenge of a range proof exactly if message and both points are those of the range proof.", "quantifier": "all seeds, positions, vectors, keys, range proofs, inner product proofs, responses and messages; the converse for all injective encodings of 32 bytes", "why_tests_cant": "Tests use each package alone, with fixed seeds, and never feed the values of one to another.", "anchors": ["rangeproof/generators/generator.go:18-57", "rangeproof/pedersen/pedersen.go:25-49", "rangeproof/pedersen/pedersen.go:181-212", "mlsag/mlsag.go:256-306", "mlsag/mlsag.go:340-419", "rangeproof/rangeproof.go:233-252", "rangeproof/rangeproof.go:323-351", "rangeproof/innerproduct/innerproduct.go:270-290", "rangeproof/fiatshamir/fiatshamir.go:12-36"]}
{"id": "C154", "title": "A ring signature from a stream makes no receiver panic, and is for all of the receiver's ring (violated)", "statement": "A receiver decodes an MLSAG signature without keys into a Signature that has its own ring and message, and calls Verify. Decode leaves ring and message as they are and makes as many response vectors, all of one length, as the stream says. For a ring with d keys in each member and at most d key images, Verify returns an error if there are no response vectors, panics exactly if there are more of them than members or if they have fewer than d responses, and otherwise accepts exactly if the chain over the first members, as many as there are response vectors, closes. So the 40 bytes of any scalar and the counts 1 and 0 make every receiver panic, with or without keys in the stream; and whoever has the keys of the first member of a ring makes 40 + 32 d bytes with which Verify accepts, whatever the other members are.", "quantifier": "all streams, readers, rings with any numbers of members and keys, messages and lists of key images", "why_tests_cant": "Tests decode what Encode wrote for the same ring.", "anchors": ["mlsag/mlsag.go:67-110", "mlsag/mlsag.go:261-306", "mlsag/mlsag.go:340-388", "mlsag/responses.go:46-62"]}
{"id": "C155", "title": "A vector commitment determines its vectors (violated: zeros at the end, scalars, no vectors)", "statement": "The point of CommitToVectors, for one vector or more, is the blinding factor times the blinding base plus every entry times the point with its number in the chain of its vector. So two commitments made with the same generator data have the same point exactly if the differences of blinding factors and entries are a relation between the blinding base and points of the chains, and when the vectors have the same lengths this relation is trivial only for the same vectors and blinding factors. But the lengths and the number of the vectors do not enter: vectors with zeros or empty vectors appended have the same commitment. A commitment made by CommitToScalar, with any generator data, is the commitment to the vector of this one scalar with the generator data blindPoint. And without vectors the point is the neutral element whatever the blinding factor, although with one empty vector it is blinded.", "quantifier": "all lists of vectors of fewer than 2^32 entries each, all generator data, blinding factors and numbers of bases already computed", "why_tests_cant": "The tests commit to a few fixed vectors and compare with sums made in the same way; they never look for a second opening.", "anchors": ["rangeproof/pedersen/pedersen.go:116-212", "rangeproof/generators/generator.go:18-57"]}
{"id": "C156", "title": "Over any number of payments the supply stays the same, and every coin can be spent (violated for keys used twice)", "statement": "A ledger keeps coins, each a key and a commitment made by CommitToScalar, and the key images seen. It takes a payment if every input is signed with a DualKey, in a ring of coins of the ledger, for a new commitment and with an image not seen before, if the new commitments of the inputs add up to those of the outputs and the fee, and if the outputs open to values below 2^64. Let the signers be rewindable as in C151. After any number of payments from any coins at the start: no key was used twice; and the coins made are the coins spent together with others, whose values add up, with all fees, to the value at the start, or one of the payments gives the logarithm of the value base. So fees never exceed the supply. Conversely whoever has this logarithm and one coin can make coins of any values. The holder of the secrets of a coin can spend it to any coins of the same total if its image was not seen. Violated: after a coin was spent no payment with another coin of the same key is taken, so of coins sent to one key all but one are lost.", "quantifier": "all sequences of payments of any length, with any numbers of inputs and outputs whose totals stay below the group order, all rings, keys, values, fees and blinding factors", "why_tests_cant": "The tests sign once for one ring; they have no ledger, and cannot quantify over histories.", "anchors": ["mlsag/dualkey.go:16-63", "mlsag/mlsag.go:142-306", "mlsag/mlsag.go:390-419", "rangeproof/pedersen/pedersen.go:21-77", "rangeproof/pedersen/pedersen.go:155-180"]}
{"id": "C157", "title": "Payments hide the amounts (violated by the proof value that Prove returns)", "statement": "A wallet keeps coins, each a key and a commitment with an opening. It pays as follows: rangeproof.Prove commits to the values of the outputs; each coin spent gets a new commitment to its value, with a random blinding factor, but the last with the one that makes the commitments add up; a DualKey with SubCommToZero signs for each coin. An observer chooses any number of payments one after the other, each with two values for every output, with equal totals and outputs below 2^64 in both cases; it also chooses and knows the keys, the other coins of the rings, the messages, which may contain all commitments and the range proof, and the random numbers of the signatures. It sees the commitments, the encodings of the range proofs, the signatures and key images, the errors, and the openings of all coins whose two values are equal. Then what it sees has the same distribution whether the first or the second values are paid: there is a bijection of the random choices under which all of it is equal. If the hash to scalars never answers zero, every such payment has an accepted range proof, its commitments add up with the fee, and its signatures are accepted unless a new commitment equals the old one. Violated: the Proof value that Prove returns carries the blinding factors, and equal commitment values in it mean equal amounts.", "quantifier": "all observers, numbers of payments and coins, values, keys, rings, messages, groups and hash functions", "why_tests_cant": "Equal distributions over choices of the observer cannot be sampled.", "anchors": ["rangeproof/rangeproof.go:Prove", "rangeproof/pedersen/pedersen.go:CommitToScalar", "mlsag/dualkey.go:Prove", "mlsag/dualkey.go:SubCommToZero"]}
{"id": "C158", "title": "Methods called on nil pointers and zero values do nothing (violated where nothing is to be done)", "statement": "A method called on a nil pointer panics or returns an error, writes nothing to its writer, and leaves the pointer nil. Exceptions: on nil, AddDecoys of no vectors, Compute(0), Append() and CommitToVectors() return normally, the last with the neutral element as its point. Decode returns an error (C119). What is checked before the pointer is followed decides between error and panic: Signature.Unmarshal, Signature.AggregateBytes, both Decompress and UnsafeSignature.Unmarshal return the error of bytes that are no signature and panic on bytes that are one; UnmarshalText returns the error of text that is not base64 and panics on other text, while Unmarshal of a public key always panics; RebuildTreeUsing returns the error NewTree would return and panics where NewTree would succeed, after hashing everything; all other methods panic. A DualKey that is not made by NewDualKey can be given a message and decoys, but SetPrimaryKey, SetCommToZero and Prove panic without changing it, whatever was called before; one made by NewDualKey never panics in the setters. A nil secret key and the zero value of SecretKey make Sign and UnsafeSign panic. Through pointers that are not nil all methods behave as the other properties say.", "quantifier": "all methods with receivers in the repository, all arguments, histories of calls on a DualKey of any length", "why_tests_cant": "The tests never call a method on nil, and cannot try all arguments.", "anchors": ["mlsag/dualkey.go:11-63", "mlsag/proof.go:31-95", "mlsag/pubkeys.go:18-75", "mlsag/mlsag.go:20-140", "mlsag/mlsag.go:261-306", "rangeproof/generators/generator.go:27-57", "rangeproof/pedersen/pedersen.go:52-212", "rangeproof/fiatshamir/fiatshamir.go:12-36", "merkletree/merkletree.go:152-229", "bls/bls.go:252-427", "bls/bls.go:542-580"]}
{"id": "C159", "title": "Payments sent as bytes arrive, and no payment that is taken makes value (violated: package variable, 32 bytes more, commitments not proved)", "statement": "A wallet pays as in C157 and sends the payment with the encoders one after another: the numbers of inputs and outputs, for every input Signature.Encode with keys, the new commitment and the key image, and last Encode of the range proof with commitments. A receiver reads it with the decoders, puts in the messages that it computes, and takes it if Verify accepts the range proof, the new commitments add up to the outputs and the fee, Verify accepts every signature with its image, and every ring member is a coin it knows with the new commitment subtracted. For 1 to 16 outputs, non-zero keys, rings with another coin and new commitments that differ from the old ones, all calls succeed on a writer that does not fail; the number of bytes is 684 + 32 * 2^k + 64 k and 232 + 128 d for every input with d other coins, 2^k the number of outputs padded; and in whatever chunks they arrive they are read as a payment that the receiver takes when its package variable M is 2^k. Violated: with any other M, as in a process that never called Prove and two outputs, Verify fails. The same payment is read when any 32 bytes follow, so its bytes can be changed by others. And because Verify accepts more commitments than are proved (C64), the holder of a single coin of any value makes a payment with 2^k outputs of any values below 2^64 and one output that nothing is proved about, worth the negative rest, that the receiver takes.", "quantifier": "all wallets, orders, coins and rings, values, random choices, messages, writers, readers and chunkings", "why_tests_cant": "The bytes, sizes and acceptance concern every number of inputs, ring sizes and chunking; that value can be made is a statement on all values and receivers, and the honest path passes every test.", "anchors": ["rangeproof/rangeproof.go:Prove", "rangeproof/rangeproof.go:Verify", "rangeproof/rangeproof.go:Encode", "rangeproof/rangeproof.go:Decode", "mlsag/mlsag.go:Encode", "mlsag/mlsag.go:Decode", "mlsag/mlsag.go:Verify", "mlsag/dualkey.go:Prove"]}
{"id": "C160", "title": "The debug checks of Prove while other calls run (violated: a call that starts meanwhile makes them fail)", "statement": "Let a call of Prove see any values of the package variable at its reads, as left there by other calls. With debug on it returns a proof exactly if it returns the same proof with debug off, no value is 2^64 - 1 or more, the debug checks saw the padded number of values in the group equations, in both calls of sumZMTwoN and in debugT0, and delta(y, z) is the same for the number seen by computeT0 as for the padded number. If one of those five reads gives another value the call returns an error. The checks add no crash: a call that panics with debug on panics with it off, and conversely if the reads agree. Violated: a call with debug on for valid values fails if another call, on any other number of values than the padded number of the first, starts between its polynomial and its checks.", "quantifier": "all values read, all interleavings with any other calls, all values, lengths and random choices", "why_tests_cant": "Races between a check and another call are not reproducible by tests, and the tests run one call at a time.", "anchors": ["rangeproof/rangeproof.go:45-208", "rangeproof/debug.go:15-182", "rangeproof/poly.go:130-153", "rangeproof/poly.go:156-202"]}
{"id": "C161", "title": "A payment from a stranger crashes no receiver (violated: two checks must come before Verify)", "statement": "A receiver reads the bytes of a payment as in C159. Reading never panics, whatever the bytes are, and its result does not depend on the chunks. For what was read, Verify of an input, with any message and its image, panics exactly if there are response vectors and they are all empty; Verify of the range proof, with a package variable M of at least 1, panics exactly if its inner product proof has equally many left and right points, k of them with 2^k = 64 M, and it has fewer than M commitments. So a receiver that first compares the ring members with its coins, and the number of commitments with M, makes no call that panics. Violated: a receiver that calls Verify first is crashed by an input of 104 bytes (any 32 bytes, the numbers 1 and 0, any two points) before any range proof; and if M is 2^j by a payment of 684 + 64 j bytes without inputs and commitments, 684 bytes in a process that never called Prove.", "quantifier": "all byte strings, chunkings, stream ends, receivers, messages, M with 64 M < 2^32", "why_tests_cant": "No test decodes bytes that an encoder did not write; that the two checks are enough is a statement on all bytes.", "anchors": ["mlsag/mlsag.go:Decode", "mlsag/mlsag.go:Verify", "rangeproof/rangeproof.go:Decode", "rangeproof/rangeproof.go:Verify"]}
{"id": "C162", "title": "An input of a payment shows nothing but its key image about the coin it spends (violated: the new commitment is not the old one)", "statement": "To spend a coin as in C151, with a non-zero key and at least one other coin, a wallet draws a new blinding factor, makes the new commitment to the same value, and calls Prove on a new DualKey; the message may be computed from the new commitment. Published are the new commitment, the challenge, the responses, the coins in the order of the ring and the key image. For given coins and random choices of the order: with another blinding factor than the coin's Prove succeeds and returns the key image of the key, and with the coin's own it refuses. The published triples of new commitment, challenge and responses are exactly those for which Verify accepts with this image, with two responses for every coin, and in which the new commitment is not the coin's commitment; each comes from one choice of the blinding factor, the nonces and the other members' responses. So two wallets that spend different coins, of any values, in the same ring with the same order and the same image publish the same triples, up to those two commitments, and whoever sees the triple, or that nothing was published, tells the two apart with probability at most 1/|F|. Violated: the new commitment is never that of the coin spent, but can be that of any other coin in the ring, and then it shows that this one was not spent.", "quantifier": "all coins, keys, values, blinding factors, rings and orders, messages as functions of the new commitment, observers, groups generated by the base, and hash functions", "why_tests_cant": "Equality of distributions over all observers cannot be sampled, and the event that shows something has probability 1/|F|.", "anchors": ["mlsag/dualkey.go:16-63", "mlsag/mlsag.go:142-306", "mlsag/proof.go:36-91", "rangeproof/pedersen/pedersen.go:CommitToScalar"]}
{"id": "C163", "title": "Which wallet spends is hidden in payments if the decisional Diffie-Hellman problem is hard", "statement": "Wallets own one coin each, with a random key, and draw at random the blinding factor of a new commitment to the coin's value. An observer knows whose coin is whose and all openings of the coins; it sees the new commitments under pseudonyms, asks for hashes, and asks pseudonyms, one after the other and as often as it wants, to spend their coins as in C162, with messages and rings (the coins in the wanted order) of its choice; it gets the signatures without the private field of the ring members, and the images. The hash to scalars is a random oracle, asked by wallets and observer; the hash to points is a random table that the observer knows. If no key is zero and no new blinding factor is the old one all calls succeed, and each signature is for the coins in that order and accepted by Verify with the image. In two worlds the m wallets are behind the pseudonyms in two different orders. An observer with T steps and rings of at most w coins tells them apart with probability at most 2 ((T w)^2 + 2 m) / |F| plus the advantages of 2 m players, given by it, in the decisional Diffie-Hellman game.", "quantifier": "all observers, numbers of wallets, steps and ring members, openings, orders of the wallets, ways to bring the coins into the order asked for, and groups generated by the base in which points and scalars can be encoded", "why_tests_cant": "A probability bound over all adaptive observers, with a reduction to a hard problem, cannot be tested; a test sees single signatures.", "anchors": ["mlsag/dualkey.go:16-63", "mlsag/mlsag.go:142-306", "mlsag/mlsag.go:391-419", "mlsag/proof.go:36-91", "rangeproof/pedersen/pedersen.go:CommitToScalar"]}
{"id": "C164", "title": "Nobody can spend a coin without its owner's key", "statement": "A thief asks for hashes and asks wallets, one after the other and as often as it wants, to spend their coins as in C162, with messages, other coins of the ring and shuffles of its choice; it gets the signatures. In the end it outputs a commitment, a signature and an image; it steals if Verify accepts them for a ring made of the coins of a given set, each less that commitment, and for a message for which no wallet was asked to spend. The keys of the coins in the set are known multiples of the base away from a point Y. The hash to scalars is a random oracle, asked by wallets, thief and Verify. If the thief steals with probability e, in T steps, with rings of fewer than w other coins and an output ring of at most n, then running a simulator, which has the public keys, images and commitments of the wallets but no secret, a second time from a random step gives a scalar y with Y = y G with probability at least (e - T^2 w / |F|)^2 / (T w + n)^2 - 1 / |F|. The commitment is chosen in the end, so the second keys of the ring need not be known before, and nothing is assumed about them.", "quantifier": "all thieves, wallets with nonzero keys and new blinding factors, sets of coins, numbers of steps and ring members, and groups generated by the base in which points and scalars can be encoded", "why_tests_cant": "A probability bound over all adaptive attackers, with a reduction to the discrete logarithm problem, cannot be tested.", "anchors": ["mlsag/dualkey.go:16-63", "mlsag/mlsag.go:142-306", "mlsag/mlsag.go:308-388", "mlsag/proof.go:36-91", "rangeproof/pedersen/pedersen.go:CommitToScalar"]}
{"id": "C165", "title": "Nobody can make somebody else's coin unspendable", "statement": "An image may occur in one payment only, so an accepted input with the image of a coin would take the coin from its owner. An attacker asks for hashes and asks wallets to spend their coins, as in C164, and then outputs a commitment, a signature and the image of the coin of wallet u, for a ring of any coins of a given set of p coins, its own coins included, each less that commitment, and for a message for which no wallet was asked to spend. If no coin with another key in the set has the same image and Verify accepts with probability e, then running a simulator, which has the public keys, images and commitments of the wallets but no secret, a second time from a random step gives the secret key of wallet u with probability at least (e - d)^2 / m^2 - 1 / |F|, with m = T w + n and d = (T^2 w + p m^2) / |F|. The bound counts coins, not the rings that can be made of them with commitments of the attacker's choice.", "quantifier": "all attackers, wallets with nonzero keys and new blinding factors, sets of coins, numbers of steps and ring members, and groups generated by the base in which points and scalars can be encoded", "why_tests_cant": "A probability bound over all adaptive attackers, with a reduction to the discrete logarithm problem, cannot be tested.", "anchors": ["mlsag/dualkey.go:16-63", "mlsag/mlsag.go:142-306", "mlsag/mlsag.go:308-388", "mlsag/proof.go:36-91", "rangeproof/pedersen/pedersen.go:CommitToScalar"]}
{"id": "C166", "title": "An input has the image of a coin in its ring, so that a coin cannot be spent twice", "statement": "An attacker asks for hashes and asks wallets to spend their coins, as in C164; it computes without bounds and may know the keys of all coins. Then it outputs a commitment, a signature and an image, for a ring of coins of a given set of p coins, each less that commitment, and for a message for which no wallet was asked to spend. The probability that Verify accepts although the image is not that of the key of any coin it visits, while two of these coins have different images, is at most (T^2 w + m (p^2 m^2 + p^2 + 1)) / |F| with m = T w + n, for T steps with rings of at most w coins and an output ring of at most n. The bound counts coins, not the rings that can be made of them with commitments of the attacker's choice.", "quantifier": "all attackers, wallets with nonzero keys and new blinding factors, sets of coins, numbers of steps and ring members, and groups generated by the base in which points and scalars can be encoded", "why_tests_cant": "A probability bound over all adaptive and unbounded attackers cannot be tested.", "anchors": ["mlsag/dualkey.go:16-63", "mlsag/mlsag.go:142-306", "mlsag/mlsag.go:308-388", "mlsag/proof.go:36-91", "rangeproof/pedersen/pedersen.go:CommitToScalar"]}
