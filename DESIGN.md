# Formal model of dusk-network/dusk-crypto in Lean 4

## Layout

* `properties.jsonl` the properties, `MANIFEST.json` the theorems proving each, `AXIOMS.txt` the axioms each depends on,
  `seeded/LOG.jsonl` the mutation tests.
* `lean/Verif/Go/…` fragments of the Go runtime and standard library: `Res` (ok / error / panic), indexing, slices over a memory
  with capacities, readers that deliver chunks and end in EOF or an error, writers that fail at an arbitrary point, base64, hex.
* `lean/Verif/Model/…` the model, function by function; every definition cites the file and lines in /repo.
* `lean/Verif/Spec/…` small independent specifications used in theorem statements.
* `lean/Verif/Lemmas/…` helper lemmas.
* `lean/Verif/Props/…` the theorems `Cxx_…`, each with an example meeting its hypotheses next to it.

Theorems named `…_violated` state that an expected property fails, for all inputs in the stated range where the failure is
general, not for one literal input. Their property is described in `properties.jsonl` as expected and violated. Nothing is
currently partial.

## Trusted base

* Lean's kernel (4.33.0) and the statements of the definitions it is given. Every theorem depends on a subset of `propext`,
  `Classical.choice` and `Quot.sound`; the subset per theorem is in `AXIOMS.txt`, written by a Lean metaprogram from the
  compiled environment. No axiom is added; there is no `sorry`, `admit`, `native_decide` or `bv_decide`.
  `decide +kernel` (kernel evaluation) is used for a few closed facts, e.g. the curve equations of the two constants of package
  bls.
* The correspondence between the Go text and the definitions in `Model/`, which is by reading. The code was not run.
* The description of the Go semantics in `Go/`: `append` writes in place iff there is capacity, `binary.Read` of a fixed-size
  array is `io.ReadFull`, index and slice expressions panic out of range, integer conversions to `uint32` and `byte` truncate.
  `int` is modelled by unbounded integers where it only counts elements in memory.
* The description of the libraries, as *structure parameters* of the theorems, never as axioms. Each structure has a proved
  instance, so the assumptions are consistent:
  * `Ristretto F G` (go-ristretto): scalars are a field `F` in which `n = 0` iff the group order divides `n`, with the order
    above 2^64; points are an `F`-module `G`; `Derive` (hash to scalar, hash to point), `Bytes` and `SetBytes` are arbitrary
    functions. Where a theorem needs 32-byte encodings that decode to what was encoded it takes `R.Encodings`.
    Instance: `Toy.ris` (the integers modulo the order, as a module over themselves).
  * `Bn256 F G1 G2 GT` (dusk-network/bn256): prime order, a bilinear pairing with `Pair(·, g2)` injective, marshalling laws (for the compressed form only of points other than infinity), and
    that the two hexadecimal constants of bls.go decode to the generators. Instances: `Toy.bn` (integers
    modulo a prime) and `BnCurve.real` (the actual curves and coordinates, C133). C85 and C133 prove that the constants are points
    of order r of the curves; that they equal the library's generators is assumed.
  * `Hash.Algs`: SHA3-256, SHA3-512, Blake2b, xxhash as arbitrary functions on byte strings with fixed output lengths where
    stated. Collision resistance is never assumed: binding theorems output the collision.
  * The zero value of `ristretto.Point` (used by blsag) is not a group element; operations on it are unspecified functions.
  * After a failed `SetBytes` the point is `bad old bytes` for an arbitrary function `bad` (C87).

## Modelling decisions

* Errors are `Res.err` with the message of the Go code where the code constructs it; panics are `Res.panic`. A theorem saying
  "error" uses `IsErr` and does not depend on messages, except C04 and C88 where the identity of the error matters.
* A method with a pointer receiver returns the new receiver, also together with an error when the code changed the receiver
  before failing (`DualKey.prove`, `Bls.Heap`, `DecodeState`).
* Randomness (nonces, blinding factors, shuffle choices, the verifier's coin, entropy) is an explicit, universally quantified
  argument.
* The package variable `rangeproof.M` is explicit state. `Reads`/`VReads` hold the values one call reads, so that concurrent
  changes can be expressed (C70, C98, C101); a call running alone reads its own value everywhere. `Model/RPProg` makes every
  single read and write of `M` a step of a program, and interleaves programs at this granularity (C102-C106).
* Loops are recursion or folds. Loops whose termination is not structural take fuel: in `Model/Merkle` the outcome `none` means
  that the fuel ran out, and theorems say from which fuel on the outcome is `some`; in `Model/Mlsag.ringLoop` running out of fuel
  is `panic`, and `ringLoop_inv` shows that it never happens.
* Merkle hashes, mlsag key vectors and rings, BLS points are values in one model and memory objects in a second one
  (`MerkleMem`, `MlsagMem`, `BlsHeap`); a refinement theorem connects the two.
* Concurrency: interleavings of reads and writes of `M`, of the memory of Merkle payloads (C124), of a shared Pedersen value (C125)
  of a shared BLS aggregate (C132), of a DualKey (C136), of a Merkle tree (C138) and of a hash handle (C144) (sequential consistency). The Go memory model permits more for racy
  programs, so violations carry over and the positive statements are about sequentially consistent executions.
* Soundness (C58, C69) is stated for the interactive form with an explicit rewinding extractor; "no known relation between the
  generators" is linear independence of the generators in a module, which is satisfiable (`C58_satisfiable`,
  `C69_satisfiable`). The Fiat-Shamir transformation is covered by C52, C73 and C77, which show what the code's transcript
  does not bind. For the ring signatures and range proofs the hash to scalars is also treated as a random oracle: an attacker is a function that is
  asked for its next question given the answers so far, and probabilities are counts over all answers (C110 to C118, C120).
* Hiding (C75) is a bijection between the finitely many scalars drawn (`Draw`); it assumes that every point is a multiple of the base (true in a group of prime
  order).

## Per property: model, proof, theorems

| id | modelled | how proved | status |
|----|----------|------------|--------|
| C01 One-shot hashes depend on the payload only | `Model/Hash`: hashers as absorbing state machines, histories of `Write`/`Sum`/`Reset` | induction over the history of other calls; a hasher whose `Write` fails is covered separately | proved, 4 theorems |
| C02 CompareChecksum accepts exactly one checksum | `Model/Hash.compareChecksum` | the checksum is a function of the data, so exactly one byte string is accepted | proved, 3 theorems |
| C03 RandEntropy never returns a short or oversized buffer | `Model/Hash.randEntropy`, the entropy source's outcome is an argument | case analysis over all outcomes of `ReadFull` | proved, 2 theorems |
| C04 NewTree terminates and succeeds exactly on non-empty hashable payloads | `Model/Merkle`: arena of nodes with Parent/Left/Right indices as built by `create` and `createIntermediate`; loops bounded by fuel | the arena refines an inductive perfect tree (`Built`), strong induction on the number of nodes of a level; fuel is shown to suffice; one node diverges for every fuel | proved, 5 theorems |
| C05 MerkleRoot is the textbook Merkle root | same; `Spec/Merkle.root` on lists | refinement of the arena to the list recursion | proved, 1 theorems |
| C06 A freshly built or rebuilt tree verifies | same; worlds of trees reached by any history of `NewTree`/`RebuildTree`/`RebuildTreeUsing` | invariant `reachable_healthy` by induction over histories | proved, 2 theorems |
| C07 VerifyContent is exact membership by hash | same | walk along parents recomputes the stored hashes; exact membership by hash | proved, 2 theorems |
| C08 Merkle roots bind same-length payload lists up to a SHA3 collision | same; collision extractor in `Spec/Merkle` | two lists with one root yield two inputs of SHA3 with one digest, found by an explicit function; necessity of the digest length shown | proved, 3 theorems |
| C09 RebuildTree preserves the root; RebuildTreeUsing behaves like NewTree | same; worlds of trees reached by any history of `NewTree`/`RebuildTree`/`RebuildTreeUsing` | invariant `reachable_healthy` by induction over histories | proved, 5 theorems |
| C10 The Merkle root identifies the payload list (violated) | same | for every payload list a different one with the same root (general constructions) | proved (violation), 3 theorems |
| C11 Tree shape: leaves in order, every leaf reaches the root in ceil(log2 n) steps | `Model/Merkle`: arena of nodes with Parent/Left/Right indices as built by `create` and `createIntermediate`; loops bounded by fuel | the arena refines an inductive perfect tree (`Built`), strong induction on the number of nodes of a level; fuel is shown to suffice; one node diverges for every fuel | proved, 2 theorems |
| C12 What VerifyTree and VerifyContent detect after tampering | same; arbitrary changes of payloads, stored hashes and `MerkleRoot` that keep the pointers | case analysis over the changed field along the refinement | proved, 9 theorems |
| C13 Building a tree does not write into payload-owned memory (violated for slices with spare capacity) | `Model/MerkleMem`, `Go/Core` slices: memory of byte arrays, capacities, Go `append` | frame lemma when capacity = length; for slices with room the overwriting is computed for every memory | proved (violation), 4 theorems |
| C14 MLSAG completeness | `Model/Mlsag`: proof state, shuffle, `prove`, `Verify`; `Spec/Mlsag`: the challenge chain | loop invariant of the ring loop; modular index lemmas; `Verify` accepts iff the specified chain closes | proved, 2 theorems |
| C15 The MLSAG ring is exactly decoys plus signer, shuffled | `Model/Mlsag`: proof state, shuffle, `prove`, `Verify`; `Spec/Mlsag`: the challenge chain | loop invariant of the ring loop; modular index lemmas; `Verify` accepts iff the specified chain closes | proved, 1 theorems |
| C16 MLSAG key images are deterministic and link signatures | `Model/Mlsag`: proof state, shuffle, `prove`, `Verify`; `Spec/Mlsag`: the challenge chain | loop invariant of the ring loop; modular index lemmas; `Verify` accepts iff the specified chain closes | proved, 3 theorems |
| C17 MLSAG Verify accepts exactly closing challenge chains | `Model/Mlsag`: proof state, shuffle, `prove`, `Verify`; `Spec/Mlsag`: the challenge chain | loop invariant of the ring loop; modular index lemmas; `Verify` accepts iff the specified chain closes | proved, 3 theorems |
| C18 MLSAG signature encode/decode round trip | `Model/Mlsag` codecs over `Go/IO` | prefix-consuming round trip lemmas (`Rd.Decodes`) | proved, 5 theorems |
| C19 Decoders never panic and reject truncation | all decoders/encoders of mlsag, pedersen, innerproduct, rangeproof over chunked readers and failing writers | combinator lemmas `NoPanic`, `ChunkFree`, `Emits` closed under the monads | proved, 5 theorems |
| C20 Decoding does not depend on how the reader delivers bytes | all decoders/encoders of mlsag, pedersen, innerproduct, rangeproof over chunked readers and failing writers | combinator lemmas `NoPanic`, `ChunkFree`, `Emits` closed under the monads | proved, 4 theorems |
| C21 Encoders report every write failure | all decoders/encoders of mlsag, pedersen, innerproduct, rangeproof over chunked readers and failing writers | combinator lemmas `NoPanic`, `ChunkFree`, `Emits` closed under the monads | proved, 4 theorems |
| C22 mlsag Signature.Equals is an equivalence (violated on response counts) | `Signature.Equals` | equality for equal counts; for unequal counts the asymmetric outcomes are constructed for every signature | proved (violation), 4 theorems |
| C23 DualKey refuses zero keys and returns exactly one key image | `Model/Mlsag.DualKey` | state after one `Prove` determined; second call shown to fail/panic for every state | proved, 3 theorems |
| C24 DualKey.Prove can be retried (violated) | `Model/Mlsag.DualKey` | state after one `Prove` determined; second call shown to fail/panic for every state | proved (violation), 2 theorems |
| C25 Proving without decoys (violated: panics) | `Model/Mlsag.DualKey` | state after one `Prove` determined; second call shown to fail/panic for every state | proved (violation), 1 theorems |
| C26 MLSAG Verify panics exactly on mis-dimensioned input | `Verify` on every shape; `Decode` output shapes | panic iff characterisation; decoded signatures are rectangular | proved, 3 theorems |
| C27 SubCommToZero subtracts the point from every decoy's second key only | `SubCommToZero` | pointwise description; panic iff | proved, 3 theorems |
| C28 MLSAG special soundness | `generateChallenge`'s hash input | special soundness from equal hash inputs with different challenges, no assumption on the hash; minimum over a cycle for any order of the queries | proved, 3 theorems |
| C29 bLSAG completeness | `Model/Blsag`: raw points including the unspecified zero value; `Spec/Blsag` | chain invariant; independence of mixins; position read off the responses | proved, 1 theorems |
| C30 The bLSAG ring contains the mixins (violated) | `Model/Blsag`: raw points including the unspecified zero value; `Spec/Blsag` | chain invariant; independence of mixins; position read off the responses | proved (violation), 2 theorems |
| C31 bLSAG responses hide the signer's position (violated) | `Model/Blsag`: raw points including the unspecified zero value; `Spec/Blsag` | chain invariant; independence of mixins; position read off the responses | proved (violation), 1 theorems |
| C32 bLSAG Verify accepts exactly closing chains | `Model/Blsag`: raw points including the unspecified zero value; `Spec/Blsag` | chain invariant; independence of mixins; position read off the responses | proved, 4 theorems |
| C33 bLSAG key image links signatures of one key | `Model/Blsag`: raw points including the unspecified zero value; `Spec/Blsag` | chain invariant; independence of mixins; position read off the responses | proved, 1 theorems |
| C34 BLS sign/verify completeness | `Model/Bls` over the structure `Bn256` | bilinearity and non-degeneracy of the pairing; permutations of batches | proved, 2 theorems |
| C35 BLS multisignature aggregation completeness | `Model/Bls` over the structure `Bn256` | bilinearity and non-degeneracy of the pairing; permutations of batches | proved, 1 theorems |
| C36 BLS batch verification is exact | `Model/Bls` over the structure `Bn256` | bilinearity and non-degeneracy of the pairing; permutations of batches | proved, 5 theorems |
| C37 BLS signatures are unique | `Model/Bls` over the structure `Bn256` | bilinearity and non-degeneracy of the pairing; permutations of batches | proved, 3 theorems |
| C38 BLS signatures are unforgeable (violated: one signature yields all) | same | forgeries constructed for every key, message and hash function | proved (violation), 3 theorems |
| C39 Distinct messages prevent rogue-key attacks (violated) | same | forgeries constructed for every key, message and hash function | proved (violation), 3 theorems |
| C40 Duplicate messages are always rejected by batch verification | same | case analysis over list lengths and duplicates | proved, 4 theorems |
| C41 Batch verification argument counts | same | case analysis over list lengths and duplicates | proved, 6 theorems |
| C42 BLS marshalling round trips | same; base64 and hex concretely in `Go/Base64` | round trips by induction over the bytes; receivers after failed decoding | proved, 8 theorems |
| C43 Failed BLS decoding leaves the receiver usable (violated for public keys) | same; base64 and hex concretely in `Go/Base64` | round trips by induction over the bytes; receivers after failed decoding | proved (violation), 4 theorems |
| C44 Public key text encoding round trips | same; base64 and hex concretely in `Go/Base64` | round trips by induction over the bytes; receivers after failed decoding | proved, 4 theorems |
| C45 BLS aggregation handles are isolated | `Model/BlsHeap`: objects and pointers; `Spec/BlsHeap`: the same histories over plain values | simulation of every history by its value reading; frames; sharing for struct literals shown | proved, 10 theorems |
| C46 AggregateApk corner cases | same | case analysis over list lengths and duplicates | proved, 2 theorems |
| C47 Vector operations are the pointwise operations, guarded by length | `Model/Vector` | list induction; base 0 deviates | proved, 9 theorems |
| C48 ScalarPowers and ScalarPowersSum are the powers and their sum (violated at base 0) | `Model/Vector` | list induction; base 0 deviates | proved (violation), 4 theorems |
| C49 Generators form one deterministic chain | `Model/Pedersen` (generators, commitments, Fiat-Shamir cache); `Spec/Chain` | list induction; binding/hiding as linear algebra; byte wrap-around of the seed index | proved, 2 theorems |
| C50 Pedersen commitments open, add up and bind | `Model/Pedersen` (generators, commitments, Fiat-Shamir cache); `Spec/Chain` | list induction; binding/hiding as linear algebra; byte wrap-around of the seed index | proved, 5 theorems |
| C51 CommitToVectors uses separate generator chains per vector (violated beyond 256 vectors) | `Model/Pedersen` (generators, commitments, Fiat-Shamir cache); `Spec/Chain` | list induction; binding/hiding as linear algebra; byte wrap-around of the seed index | proved (violation), 5 theorems |
| C52 Fiat-Shamir cache is plain concatenation | `Model/Pedersen` (generators, commitments, Fiat-Shamir cache); `Spec/Chain` | list induction; binding/hiding as linear algebra; byte wrap-around of the seed index | proved, 2 theorems |
| C53 Inner product proof completeness | `Model/InnerProduct.generate`, `verify`; `Spec/IPA` | folding invariant by induction on the rounds, for every hash function that does not return zero on the transcript | proved, 1 theorems |
| C54 VerifScalars returns the folding weights | `verifScalars` | bit recurrence by induction | proved, 4 theorems |
| C55 Generate rejects or panics on malformed sizes, never yields a proof | same model; powers of two; codec | termination, error and panic per shape | proved, 5 theorems |
| C56 DiffNextPow2 is the minimal padding to a power of two | same model; powers of two; codec | termination, error and panic per shape | proved, 2 theorems |
| C57 Inner product proof encoding round trips but is malleable | same model; powers of two; codec | termination, error and panic per shape | proved (violation), 4 theorems |
| C58 Inner product argument knowledge soundness | transcript trees | extraction by induction on rounds over a free module (linear independence of generators stated as hypothesis) | proved, 3 theorems |
| C59 BitCommit is the 64-bit decomposition | `Model/BitCommit` | binary expansion by induction | proved, 5 theorems |
| C60 Range proof completeness | `Model/RangeProof.prove`/`verify` with state `M`, `Model/Poly`; `Spec/RangeProof`: the prover of the paper | polynomial identities over lists; reduction of the mega-check | proved, 2 theorems |
| C61 Proofs of out-of-range values never verify | same; values not below 2^64 | accepting challenges are roots of a non-zero polynomial; bound on their number | proved, 4 theorems |
| C62 Verify is a function of the proof (violated by the global M) | same | `Verify` as a function of proof and `M`; different `M` give different verdicts on one proof | proved (violation), 3 theorems |
| C63 Verify's random linear combination is exactly two equations | same | the check is linear in the coin: two equations iff accepted for two coins | proved, 2 theorems |
| C64 Every commitment in an accepted proof is range-checked (violated) | same | `Verify` as a function of proof and `M`; different `M` give different verdicts on one proof | proved (violation), 1 theorems |
| C65 Debug mode agrees with normal mode (violated at 2^64-1) | debug checks (`rangeproof/debug.go`) | debug outcome computed for all values; all-ones value deviates | proved (violation), 4 theorems |
| C66 Range proof encoding round trips | codec and `Equals` | round trips; equality per shape, counterexamples for every proof | proved, 8 theorems |
| C67 rangeproof Proof.Equals is equality (violated) | codec and `Equals` | round trips; equality per shape, counterexamples for every proof | proved (violation), 10 theorems |
| C68 Prove's own failures | `Model/RangeProof.prove`/`verify` with state `M`, `Model/Poly`; `Spec/RangeProof`: the prover of the paper | polynomial identities over lists; reduction of the mega-check | proved, 5 theorems |
| C69 Range proof knowledge soundness | `Spec/RPSound`: interactive form, rewinding extractor | extraction from a tree of accepting answers; linear independence of the generators is the hypothesis | proved, 4 theorems |
| C70 Concurrent Prove calls do not interfere (violated) | `Model/RPConc`: interleavings of reads and writes of `M` | invariants over all schedules of uniform calls; violating schedules for all sizes | proved (violation), 6 theorems |
| C71 Decoders accept exactly the valid encodings (violated by the inner product decoder) | grammars of the encodings, `Spec/Grammar` | decoder = grammar (iff), by combinators | proved (violation), 5 theorems |
| C72 Commitment equality (not preserved by encoding: violated) | `Commitment.Equals`, codec | direct | proved (violation), 2 theorems |
| C73 An accepted inner product proof is bound to its statement (violated) | `innerproduct.Verify` | the accepted claims form a line; for every proof another claim is accepted; all shapes | proved (violation), 3 theorems |
| C74 Inner product Verify on every shape of arguments (boundary of G and H not checked: violated) | `innerproduct.Verify` | the accepted claims form a line; for every proof another claim is accepted; all shapes | proved (violation), 2 theorems |
| C75 A published range proof hides the values | `prove` over a group where every point is a multiple of the base | bijection between the finitely many scalars that Prove draws, for two witnesses, with equal results (errors included); induction over the calls of an adaptive observer | proved, 6 theorems |
| C76 An accepted MLSAG signature cannot be altered without the secret keys (violated) | `mlsag.Verify`, codec | explicit maps from accepted signatures to different accepted ones | proved (violation), 3 theorems |
| C77 An accepted MLSAG signature is bound to its ring (violated for keys without image) | `mlsag.Verify`, codec | explicit maps from accepted signatures to different accepted ones | proved (violation), 3 theorems |
| C78 MLSAG Verify checks the shape of the ring (violated) | `mlsag.Verify`, codec | explicit maps from accepted signatures to different accepted ones | proved (violation), 1 theorems |
| C79 The shuffle of the MLSAG ring is unbiased for uniform choices | shuffle (`shuffleLoop`) | bijection between choices and permutations (factorial count); position as a function of the seed | proved, 1 theorems |
| C80 The signer's position in the MLSAG ring is unpredictable (violated) | shuffle (`shuffleLoop`) | bijection between choices and permutations (factorial count); position as a function of the seed | proved (violation), 2 theorems |
| C81 SubCommToZero changes only the ring's second keys (violated for shared vectors) | `Model/MlsagMem`: slices of points and rings in a store, growth policy of `append` arbitrary | refinement to the value model where nothing is shared, violations computed for every memory otherwise | proved (violation), 5 theorems |
| C82 A signature is not changed by later calls on its DualKey (violated) | `Model/MlsagMem`: slices of points and rings in a store, growth policy of `append` arbitrary | refinement to the value model where nothing is shared, violations computed for every memory otherwise | proved (violation), 7 theorems |
| C83 The first DualKey.Prove: when it succeeds, fails or panics | call sequences on `DualKey` | induction over the calls; the specification (`Calls`) reads keys, message and ring off the calls alone | proved, 2 theorems |
| C84 DualKey: keys, message and ring follow from the calls | call sequences on `DualKey` | induction over the calls; the specification (`Calls`) reads keys, message and ring off the calls alone | proved, 2 theorems |
| C85 The base points of package bls | `Go/Base64` hex, `Bls.g1Str`/`g2Str` | hex round trip by induction; curve equations by kernel evaluation on the two literals of the source (the domain is these two constants) | proved, 5 theorems |
| C86 Range proof Verify on every shape of proof (violated: remote panic) | `rangeproof.Verify` on arbitrary proofs | complete case analysis of shapes; attack for every m = 2^j | proved (violation), 3 theorems |
| C87 What Decode leaves in its receiver and allocates, also when it fails (violated) | `Model/DecodeState`: decoders changing a receiver step by step, with allocation | the receiver is described by `items`/`rows` of the stream; simulation with the value decoders; attacks for all counts | proved (violation), 12 theorems |
| C88 Which failure NewTree and VerifyTree report | `Model/Merkle`; payloads whose hashing may fail | induction over the tree with the order of the recursive calls | proved, 4 theorems |
| C89 Bookkeeping of keys, responses and members; decoding into a receiver in use | `Model/MlsagSmall`, `Model/DecodeState` | induction over calls; `row_spec` with arbitrary receiver | proved (violation), 9 theorems |
| C90 rangeproof.Prove does not write into the memory of its caller (violated) | `Model/RPMem`: the slice of amounts in memory, growth policy arbitrary | induction over the padding loop; refinement to the value model; exact description of the overwritten elements | proved (violation), 5 theorems |
| C91 The generators of a Pedersen value are fixed by the seed given to New (violated) | `Model/PedMem` over `Go/Slice`: seeds in memory; programs on any number of values | refinement to the value model; frame of `append`; induction over programs; exact description of the overwritten byte | proved (violation), 6 theorems |
| C92 Transcripts are independent of each other (violated for copies) | `Model/HashMem` over `Go/Slice`: caches in memory, struct copies, results handed out | simulation of transcripts as values by induction over programs; violations for all caches with spare capacity | proved (violation), 4 theorems |
| C93 The functions of package vector return new memory (violated: SubScalar, Neg, Split) | `Model/VecMem` over `Go/Heap`: loops of the functions on memory | loop invariants; the final memory is given exactly | proved (violation), 6 theorems |
| C94 innerproduct.Generate works on its own memory, whatever its arguments share | `Model/IPMem` over `Go/Heap`: copies, halves sharing an array, folding in place | simulation with the value model; invariant of the folding loop over two arrays; frame of every step for every outcome | proved, 3 theorems |
| C95 bLSAG special soundness and the member to extract from | `Model/Blsag`; rings of group elements | linear algebra on injective encodings; minimum over a cycle for any order of the queries | proved, 4 theorems |
| C96 A bLSAG signature needs a secret key of its ring (violated for the rings made by Sign) | `Model/Blsag` with a zero value that absorbs (assumption on the library, shown satisfiable) | the step at the zero value is constant; decomposition of the ring at it | proved (violation), 2 theorems |
| C97 An accepted ring signature cannot be rotated (violated) | `Model/Mlsag`, `Model/Blsag` | fold over a rotated list | proved (violation), 2 theorems |
| C98 Verify of a range proof is independent of concurrent calls of Prove (violated) | `Model/RPConc` with calls of Verify: six reads of `M` | the check evaluated for independent values at each read; invariant over interleavings; concrete schedules for the violations | proved (violation), 7 theorems |
| C99 An accepted aggregated proof shows that all commitments are in range (violated while Prove runs) | as C98 | the honest prover for zeros in the missing places, its transcript over the arbitrary points; the sum over the commitments split | proved (violation), 1 theorems |
| C100 innerproduct.Generate reports unsuitable lengths with an error (violated) | `Model/InnerProduct` | case analysis of the first round by lengths; C55 for success | proved, 3 theorems |
| C101 Prove under concurrent calls returns the honest proof or an error (violated: it may panic) | `Model/RangeProof` with independent values at each read of `M`, `Model/RPConc` | the run of Prove evaluated for independent reads; C100 for the last step; unused factors do not matter; concrete schedule for the crash | proved (violation), 5 theorems |
| C102 Concurrent calls on the same number of values do not disturb each other | `Model/RPProg`: programs with every read and write of `M` as a step, interleaved | the programs run alone equal the sequential model; all reads and writes agree, so every step preserves this | proved, 3 theorems |
| C103 The helper vectors are complete (violated while M changes) | as C102 | outcomes for all reads computed by induction over the loops; the other calls write the value wanted just before each read | proved, 4 theorems |
| C104 A proof returned by Prove is accepted by Verify (violated while M changes) | as C102 | missing elements moved into `aR`, missing blinding into the coins; then as C101 and C60; one missing element leaves one point in the equation | proved (violation), 5 theorems |
| C105 An accepted proof hides all bits (violated while M changes) | as C102 | C104 with all elements there, and C60's equation | proved (violation), 1 theorems |
| C106 Verify decides by the proof alone (violated while M changes, exact outcomes) | as C102 | the check evaluated for a vector with missing elements; reachability as in C103 | proved (violation), 5 theorems |
| C107 An MLSAG signature reveals nothing but its ring and its images | `Model/Mlsag`: coins of `prove` explicit | the link at the signer does not depend on the challenge, so the coins can be read off an accepted signature by going round the ring; counting by the bijection | proved, 3 theorems |
| C108 A bLSAG signature reveals nothing but its ring, its image and the signer's position (violated: the first response) | `Model/Blsag`: coins of `Sign` explicit | the nonce and the responses can be read off an accepted signature, by the link at the signer; counting by the bijection | proved (violation), 3 theorems |
| C109 The key image of an accepted MLSAG signature is that of a ring member (violated) | `Model/Mlsag`: `Verify` | the chosen challenge is a fixed point of the link, so the chain closes for any number of copies; C17 | proved (violation), 1 theorems |
| C110 MLSAG key images link signatures, if two ring members have different images | `Spec/Oracle`: hash answering by coins, attackers as functions of the log; `Verify` run with the hash function fixed by the game | the question of the chain asked last: its answer solves a vector equation with at most one solution, for each choice of two members and two earlier questions; the coin sequences with such an answer are counted | proved, 1 theorems |
| C111 bLSAG key images link signatures (violated for rings of copies of one key; bounded otherwise) | `Model/Blsag`: `Verify`, over group elements; as C110 | as C109; bLSAG over group elements is MLSAG with vectors of one key, so the bound follows from C110 | proved (violation), 2 theorems |
| C112 MLSAG signatures cannot be forged without the secret keys, up to discrete logarithms | as C110; `Spec/Forking`: rewinding with fresh coins | the forking lemma (Cauchy-Schwarz over runs with the same beginning); the member asked for earliest has its challenge answered later, so two runs that part there give two equations for one point | proved, 1 theorems |
| C113 bLSAG signatures for rings of published keys cannot be forged without a secret key, up to discrete logarithms | as C111 and C112 | from C112, with vectors of one key | proved, 1 theorems |
| C114 Range proofs are sound against provers that use the hash function, up to relations between the generators | `Spec/RPAlgebraic`: provers in the algebraic group model against the hash of `Spec/Oracle`; `Verify` run with the hash function fixed by the game | the coefficients of an accepted proof satisfy equations in the challenges; going back through the game in the order in which the challenges were first answered, an answer that is no root of one of finitely many polynomials fixed before lets the challenge be eliminated; before all answers the equations say that the commitments are opened to bits (`Lemmas/RPFold*`, `RPUnwind`); the roots are counted | proved, 3 theorems |
| C115 Signatures for messages of the attacker's choice do not help to forge MLSAG signatures | as C112; `Spec/MlsagChosen`: the game in which `Prove` is run with the hash function fixed so far; the simulator | a step of the real game and one of the simulated game are the same for coins related by a bijection (the signer's nonces against responses), unless the last question of a signer was asked before; such coins are counted (the last question determines a response); the simulator's log differs from a true hash function in strings with requested messages only, which `Verify` never asks for; then C112 for each choice of the simulator's coins, with Cauchy-Schwarz | proved, 3 theorems |
| C116 MLSAG: nobody can be framed by a signature with their key images | as C115 | for images fixed in advance the answers after which a question about a member without these images closes the ring are counted (`hits`: one scalar for each earlier question and published vector); otherwise the member asked about first has the images, so it is user `u`, and the rewinding of C112 applies to the one vector of `u`; with signatures through the simulator of C115 | proved, 2 theorems |
| C117 MLSAG: key images link signatures also for attackers that have seen signatures | as C115 | C110 for each choice of the simulator's coins, with the simulation bound of C115 for the event | proved, 1 theorems |
| C118 DualKey: an accepted signature shows that the subtracted commitment has the value of a ring member (violated for values that are not range checked) | as C115; openings with `Pedersen.commitToScalar` | the forking lemma with a set of scalars that the fresh coin has to avoid (`forking_avoid`); two runs give a linear equation for the value base whose coefficient is zero only for `2^65` scalars; for values without bound the owner chooses `C'` so that the point it has hashed fits | proved (violation), 3 theorems |
| C119 Decode through any pointer never panics; on nil it reads nothing (violated: what Commitment.Decode leaves) | `Dec.nilChecked` (pointer as option) around the decoders with receivers of C87; `Commitment.Decode` with its receiver | cases on the pointer; the element loops by `row_spec`; the other decoders by C87 | proved (violation), 6 theorems |
| C120 bLSAG: nobody can be framed by a signature with their key image | as C111 and C113: the attacker against vectors of one key | C116 through the equivalence of bLSAG verification and MLSAG verification with vectors of one key (`Linker.Forges.vec`); a ring of one member is verified once here and twice there, which is weaker | proved, 2 theorems |
| C121 A signature accepted for two messages shows a collision of the hash (violated: the message is not delimited) | `Signature.verify`, bLSAG's `verify`, `VerifyUnsafe` as in C17, C32, C36; what is hashed last is written down in `lastQuery` | the last link of the chain hashes to the challenge; encodings of points have 32 bytes; for BLS the pairing with a nonzero key is injective; the violation moves the first point into the message and solves for the images | proved (violation), 6 theorems |
| C122 The repository's own tests hold for all values, keys and nonces, up to named hash collisions (violated: Checksum identifies the data) | the functions as in C14, C17, C29, C32, C34 to C36, and `Model/Poly`; for the fixtures SHA3, BLAKE2b and xxHash64 are written out in `Model/Keccak.lean` and `Model/StdHash.lean` | the completeness theorems together with C121; the closed forms by induction on the loops; the Merkle fixtures of the tests (roots, rebuild, VerifyTree, VerifyContent) are evaluated by the kernel and agree with the expected bytes in the test file | proved (violation), 7 theorems |
| C123 What rangeproof.Verify computes is bounded by the size of the proof (violated: exponential; and by earlier failed calls) | `Model/Work`: `Verify` and what it calls, written with counters; `C123_same` shows that without the counters it is the model of `Verify` | the counters are added up along the run, with the lengths known from C86; counted are writes of scalars into slices, not temporaries, allocations of capacity or the cost of one operation | proved (violation), 6 theorems |
| C124 Merkle trees can be built and verified by several goroutines at once (violated for slices with spare capacity) | Model/MerkleConc.lean: the functions of merkletree.go as programs whose steps are the memory accesses (append, digest, comparison), on the slices of Model/MerkleMem.lean; goroutines share a memory under a schedule | a program is safe if it appends only to slices without spare capacity whatever is added to memory between its steps; safe programs stay safe under each other's steps; each of the three functions is safe; the failures are executions given for all layouts of a described shape | proved (violation), 11 theorems |
| C125 One Pedersen value can be used by several goroutines (violated while bases are missing) | `Model/PedConc`: the methods as programs whose steps are the reads and writes of `Bases`; goroutines under a schedule; the slice in the field is a value; `C125_alone` ties a call alone to `Model/Pedersen` | an invariant on the field (the old bases are a prefix, or it is unchanged) that all programs keep; the failures are schedules, for all states of the value they apply to | proved (violation), 7 theorems |
| C126 A relation between the generators gives a discrete logarithm, if Point.Derive is a random oracle; so commitments bind and range proofs are sound up to discrete logarithms | `Spec/PointOracle`: the hash to points as a table on a finite set of strings that contains the seeds and all encodings, two coins per string | for fixed points the coins `b` are still uniform, and a relation with nonzero coefficients at different strings annihilates them for one table in `|F|`; the strings of the two chains are different unless a point repeats, and changing the answer to the last string shows how rarely it does (`Lemmas/PointOracle`); for range proofs the union with C114, for every table | proved, 6 theorems |
| C127 MLSAG signatures reveal no more about the signer than the key images do | `Spec/MlsagHiding`: observers as decision trees; the real game with `Prove` and a lazily sampled hash; the game with invented signatures | for fresh questions the signer's coins and the invented numbers correspond one to one (`rearrange`, `sign_invented`), and questions are stale for few coins; induction over the steps on the difference of the counts (`count_diff`); the rest is the triangle inequality | proved (violation), 5 theorems |
| C128 Signatures and proofs stay safe when the random numbers are known or repeat (violated) | the models of C14, C29, C51; the challenge of a ring member is recomputed from the published values | the formulas for the signer's responses in `sign_eq` and for `t` in `Honest` are solved for the secrets | proved (violation), 7 theorems |
| C129 MLSAG hides the signer if the decisional Diffie-Hellman problem is hard | `Spec/MlsagDdh`: the DDH game, tables for the hash to points, and the player that runs an observer of C127 | hybrids: with the first n images computed and the others random, consecutive games are the two sides of the DDH game of the player at position n, exactly, since a secret, a table entry and an image may be drawn again (`chance_again`); with all images random the order of the users does not matter (`stage_zero`); C127_invented for every table | proved, 1 theorems |
| C130 The functions of package merkletree hash every payload once (violated by VerifyTree and VerifyContent) | `Model/MerkleWork`: the functions of `Model/Merkle` with counts of CalculateHash and Sha3256 calls; `Spec.inner` | leaving out the counts gives the functions back (`C130_counted`); the counts follow from the shape of built trees (`Shape`, `Perfect`) by induction; a ladder of nodes for the exponential case | proved (violation), 9 theorems |
| C131 The points of an accepted range proof determine its scalars | Verify (accepted for two coins, so for all by C63), generators derived by the code | subtract the two verification equations of the two proofs; weights and powers of y are units; C126 turns the relation into a logarithm; converse by solving for taux and mu with a b = t; freeRis is an instance with independent derived generators | proved, 4 theorems |
| C132 One Apk or Signature can be aggregated into by several goroutines (violated: keys and signatures get lost) | `Model/BlsConc`: the aggregation methods as programs with one read and one write of the shared point (a call alone is the method of `Model/Bls`, `C132_alone`) | invariant over all schedules (`During`): the point and every value read are sums over calls that have written; conversely a schedule for every non-empty set | proved (violation), 5 theorems |
| C133 The base points of package bls generate groups of prime order | `Spec/BnCurve`: the two curves with the fields and the group law of Mathlib; the constants as in C85 | primality by Lucas certificates; r times the base points by double and add in affine coordinates, evaluated in the kernel, every inverse checked by a multiplication (`Lemmas/CurveChain`, `BnOrder`); the number of points is a multiple of r, at most 2p + 1 < 3r, and not 2r because -3 is no cube modulo p; `BnCurve.real` is an instance of `Bn256`, with the only bilinear pairing there is up to isomorphism | proved, 6 theorems |
| C134 Signing makes the same calls whatever the secret keys and the random choices are (violated by the search for the signer in package mlsag) | `Model/Trace`: the functions for signing and verifying of packages mlsag and blsag again, with the list of calls and tests they make; leaving it out gives back the functions of `Model/Mlsag` and `Model/Blsag` (`proveT_res`, `verifyT_res`, `signT_res`). Time and memory accesses inside the library are not modelled | a predicate for a computation that makes a prefix of a list of steps, and all of it if it succeeds, is closed under sequencing and loops; the sequences are written down independently in `Spec/Trace` | proved (violation), 8 theorems |
| C135 Proving a range makes the same calls whatever the values are (violated by the branches taken for their bits) | `Model/TraceRP`: Prove of package rangeproof and all it calls again, with the list of calls and the branches of BitCommit (Prove alone, without debug); leaving it out gives back `Model/RangeProof` (`proveT_res`). Time and memory accesses inside the library are not modelled | a predicate for a computation that makes a list of steps if it returns, with a property of the result (lengths), closed under sequencing; the lengths of all vectors in all rounds; bits by induction over the loop; counting by simplification | proved (violation), 6 theorems |
| C136 One DualKey can be used by several goroutines (violated: decoys get lost, and Prove signs with another message, ring or key, or panics) | `Model/MlsagConc`: the methods of DualKey as programs of single reads and writes of its fields, in the order of the source (a call alone is the method of `Model/Mlsag`, `C136_alone`); `append` is assumed to copy | invariant over all schedules for the decoys, and a schedule for every non-empty list; for the others a call is split at the point of interest (`exec_between`), and the rest of it is evaluated on the changed DualKey | proved (violation), 8 theorems |
| C137 Aggregated keys resist keys made from the key of an honest user (violated: the coefficients do not depend on the set of keys) | `Spec/BlsRogue`: attackers that say how their keys are made from the honest one when they first hash them, SHA3-256 as a random oracle with 256 bit values shared by keys and messages; no signatures are given out (with one, C38 applies). How hard it is to find the choice that exists is not modelled | bilinearity; the last answer that enters the weighted sum lies in a small set determined by the earlier ones (`Oracle.card_guess`); existence by the second moment of the number of solutions (`Lemmas/SecondMoment`) | proved (violation), 6 theorems |
| C138 One Tree can be rebuilt and verified by several goroutines (violated: honest trees are reported as wrong, trees get mixed, rebuilds are undone) | `Model/MerkleShare`: the methods of Tree as programs of single reads and writes of its fields, in the order of the source (a call alone is the function of `Model/Merkle`, `C138_alone_*`); nodes are not written once a field points to them, so building and walking them is no interaction; payloads are immutable | invariant over all schedules (each field belongs to some payload list, each call is at a stage with what it holds); schedules in phases: every goroutine takes one step, the chosen one last | proved (violation), 9 theorems |
| C139 A ring signature of one package is not valid in the other (violated: blsag signatures are mlsag signatures with one key per member) | `Props/Convert`: the same message, challenge, keys and responses as signatures of both packages (`toBlsag`, `toMlsag`), with the models of both and the decoder | both verifiers are the closing of a chain (C17, C32) and the chains agree step by step; completeness of both packages; the encoding is that of C18 | proved (violation), 7 theorems |
| C140 Objects written one after another to a stream can be read one after another, and sizes depend on counts only (violated for range proofs) | the encoders and decoders of `Model/Mlsag`, `Model/Pedersen`, `Model/RangeProof`, `Model/InnerProduct`; several objects: `writeEach` and `readTimes` | lengths of the encodings of C18, C57, C66; each decoder of a self-delimiting encoding consumes exactly it (`Rd.Decodes`); the inner product decoder by its exact description in C71 | proved (violation), 8 theorems |
| C141 An aggregated BLS signature is accepted only if every signature in it is valid (violated: exactly if the errors add up to zero) | `unsafeBatch`, `verifyUnsafeBatch`, `aggregate`, `aggregateApk`, `Verify` of `Model/Bls` on arbitrary points as signatures | by bilinearity the two sides of the verification equation of the aggregate differ by the sum of the errors; nondegeneracy of the pairing for the two invalid parts | proved (violation), 6 theorems |
| C142 The Merkle root identifies the payloads (violated: exactly which lists share a root) | `newTree` of `Model/Merkle`; separate specification: `place` and `bottom` (the full binary tree), `top` and `above` (values in it), `inputs` (what is hashed) | `root = top` over the bottom by induction on the rounds; two full trees of one depth with the same top agree everywhere or show a collision, which is among the inputs of the code; `place` is onto, so different hashes are recovered | proved (violation), 5 theorems |
| C143 Merkle trees over payloads hashed with SHA3-256 have the same root only for the same payloads (holds without repeated and 64-byte payloads; violated with them) | `newTree` of `Model/Merkle` with payloads hashed by SHA3-256; attackers and oracle: `Twins`, `Spec/Oracle` | C142 for pairwise different digests; inner nodes hash 64 bytes, so they differ from the payloads; a collision among the strings asked shows as a repeated coin, counted by `card_guess` | proved (violation), 4 theorems |
| C144 One hash handle can be used by several goroutines (violated: exactly which digests they can get) | `Model/HashConc`: `PerformHash` in two steps, any number of goroutines, any schedule | invariant with the list of those who have written; for the converse the schedule that writes in the given order and sums after the given places | proved (violation), 3 theorems |
| C145 Rings are ordered by random numbers that the time does not reveal (violated: at most 2^31 - 1 orders; the position repeats; Sign sets the generator of the whole program) | `MathRand` (any generator that meets the documentation of math/rand; its algorithm is not modelled), `Proof.proveAt`, `Blsag.signAt`, `Signers` (steps of Seed and Intn under the lock of the shared generator) | the shuffle is a function of the state made from the seed, of which there are 2^31 - 1; 13! is larger, so the permutations of a ring of different keys are not all reached; positions by C80 and C30; invariant over the steps of all goroutines for the draws | proved (violation), 8 theorems |
| C146 Objects of any size are encoded completely or an error is reported (violated from 2^32 elements on) | encoders of `Model/Mlsag`, `Model/InnerProduct` and `Model/Pedersen`, in which `uint32(len)` is reduction modulo 2^32 | `be32` sees its argument modulo 2^32; the decoder is run on the first elements by C18, C57 and `decodeAll_decodes`; the loop of the commitment panics iff the bases are fewer than the scalars | proved (violation), 5 theorems |
| C147 How often honest range proofs and inner product proofs fail | `Prove`, `Generate` and both verifiers with the hash function replaced by an arbitrary function (`Mlsag.withHash`); `Spec/RandomHash` counts functions on a finite set of inputs | each string the prover hashes depends on the earlier answers only (`asks_causal`, by comparing runs under two hash functions round by round); changing the answer to a fresh question maps each bad function to |F| different functions, so at most T of |F| functions answer zero to one of the T questions; C53/C60 then give acceptance. For the lower bound the first question is the same for all functions and the answer zero makes `Prove` return an error | proved, 4 theorems |
| C148 What signing and verifying in package bls costs: the sequence of library calls | `Model/TraceBls`: the functions of `Model/Bls` written with the sequence of calls to hash, bn256 and subtle; arguments are left out except for the lengths of hashed strings; calls inside the libraries and fmt are not modelled | `C148_same`: without the calls the functions of `Model/Bls` come back; induction over the messages and keys for the sequences, the bound on pairings for all arguments by adding up the bounds of the parts | proved, 10 theorems |
| C149 Commitments to values in range balance like the values (violated for commitments without range proof) | `Pedersen.commitToScalar` and the range proof verifier as in C50 and C69; adding points is the group operation of the library | homomorphism (C50) and injectivity of the cast below the order; `exists_values` reaches the order with values in range; for accepted proofs `C69_extraction` on both sides and the difference of the totals as a third candidate relation | proved (violation), 4 theorems |
| C150 Neutral elements are refused as keys (violated: they sign everything) | `UnmarshalPk`, `NewApk`, `AggregateApk`, `Verify`, `VerifyBatch`, `GenKeyPair` of package bls and `Prove`, `Verify` of package mlsag as in C34 to C46 and C14 | bilinearity and injectivity of the pairing with the generator; the exact sum of `AggregateApk` without its neutral terms; the batch equation (C36) without its neutral term; C14 with the secret keys zero | proved (violation), 7 theorems |
| C151 A payment of dual-key signatures and commitments makes no value and spends no coin twice | `DualKey` and `Verify` as in C23 and C84, `Pedersen.commitToScalar` as in C50; `Spend` is what two runs of one signer share and where they part | special soundness (C28) for both keys of the member, then C149 with the extracted second secrets as one more blinding factor on the right; the image is a function of the key; the honest direction by C84 and the homomorphism | proved, 7 theorems |
| C152 Exp compares the number of scalars with N times M (violated: the product wraps) | `Exp` with the product in 64-bit two's complement (`exp64`), beside `Vec.exp` with numbers, which all other properties use | two's complement is the residue modulo 2^64 nearest to zero (`int64_spec`, `int64_eq`); the two functions agree while the product is in range | proved (violation), 5 theorems |
| C153 What is hashed for one purpose is not what is hashed for another (violated) | generators, `Pedersen`, key images, `mlsag.Verify`, the transcripts of `Verify` and of the inner product as in C48, C50, C17, C61 and C66; nothing new is modelled | the chain continues from any of its points; both points of a one-member ring can be solved for key and image when the challenge is not zero; the converse goes down both chains together, until the hashed strings differ or a seed is met, and seeds of the library are not 32 bytes long | proved (violation), 9 theorems |
| C154 A ring signature from a stream makes no receiver panic, and is for all of the receiver's ring (violated) | `Decode` as in C18 and C71, `Verify` as in C17 and C26 | the dimensions after decoding by the loops of the decoder; C26 and C17 for the outcome; the 40 bytes are decoded step by step (`blank_decodes`); a ring of one member closes with the responses of C14 for every challenge | proved (violation), 4 theorems |
| C155 A vector commitment determines its vectors (violated: zeros at the end, scalars, no vectors) | `Pedersen.commitToVectors` and `commitToScalar` as in C50 and C51; nothing new is modelled | the sum of C51 written over pairs of indices, with zero where there is no entry (`msm_chain`, `vectorsSum_eq`); the difference of two such sums; lists of the same shape are determined by their entries (`entry_shape`) | proved (violation), 5 theorems |
| C156 Over any number of payments the supply stays the same, and every coin can be spent (violated for keys used twice) | payments as in C151 (`DualKey`, `Pedersen.commitToScalar`); the ledger is the list of coins made and of key images seen, kept by the caller | induction over the payments with C151 for each; distinct images give distinct keys, so the coins spent are without repetition among those made; the converse solves for the second secret with the logarithm | proved (violation), 6 theorems |
| C157 Payments hide the amounts (violated by the proof value that Prove returns) | `Props/LedgerHide.lean`: `pay`, the honest use of `RP.prove` and `DualKey` for one payment, `payments` and `view`, what an adaptive observer sees; built on `Model/RangeProof.lean` and `Model/Mlsag.lean` | C75's bijection for the range proof, shifts of all blinding factors by the logarithm of the value base; the secrets of the signatures do not change; gluing over the payments with dependent bijections | proved (violation), 3 theorems |
| C158 Methods called on nil pointers and zero values do nothing (violated where nothing is to be done) | `Model/Via.lean`: every method with the receiver (and the other pointers) possibly nil; the pointer is followed where the code first uses a field. `DualKey` with its slice of keys, `SecretKey` with its pointer | agreement with the models on values by cases and induction over the loops; on nil by evaluation, with `NewTree` (C04) for what RebuildTreeUsing does before it panics; the number of keys of a DualKey is an invariant of all calls | proved, 19 theorems |
| C159 Payments sent as bytes arrive, and no payment that is taken makes value (violated: package variable, 32 bytes more, commitments not proved) | `Props/LedgerWire.lean`: `sendPayment`, `readPayment`, the encoders and decoders of `Model/Mlsag.lean` and `Model/RangeProof.lean` one after another, and `Delivery.Taken`, the checks of a receiver | the bytes by C18 and C66; the shape of what `DualKey.Prove` returns from the invariant of C84; acceptance from C157 and C62, verdicts do not see decoy flags; the payment that makes value from C64 with the missing value in the commitment that is not proved | proved (violation), 6 theorems |
| C160 The debug checks of Prove while other calls run (violated: a call that starts meanwhile makes them fail) | `proveWith` of `Model/RangeProof.lean` with debug on and any `Reads`, one read of the package variable for each function that uses it (`Model/RPProg.lean` has every read of the loops, C102 and C103); `Proc` of `Model/RPConc.lean` for the interleavings | lengths of the vectors decide the reads; the group equations hold for the vectors of an honest run, so the checks reach all comparisons; the last comparison by cancelling the sum over the values | proved (violation), 5 theorems |
| C161 A payment from a stranger crashes no receiver (violated: two checks must come before Verify) | `Props/LedgerCrash.lean`: `readPayment` of C159 on any bytes, `Signature.verify` and `RP.verify` on what it returns | no panic and chunking by composing C19 and C20; the shape of what is read by C26, so that the panics are those of C26 and C86; the bytes by decoding them with the lemmas of C154 and C66 | proved (violation), 5 theorems |
| C162 An input of a payment shows nothing but its key image about the coin it spends (violated: the new commitment is not the old one) | `Props/LedgerAnon.lean`: `spendInput`, the calls of C151 on a new `DualKey` of `Model/Mlsag.lean` and `Prove`; `InputChecks`, what an observer checks | the DualKey makes the same proof as the calls of package mlsag, so that C107 gives the signatures for one blinding factor; new commitments are the multiples of the base; counting for each blinding factor, and the two blinding factors with which one of the wallets is refused | proved (violation), 6 theorems |
| C163 Which wallet spends is hidden in payments if the decisional Diffie-Hellman problem is hard | `Props/LedgerDdh.lean`: `Watcher`, `Watcher.real` and `payGame`, the game, with the calls of C162 (`spendInput`) on the models of `DualKey` and `Prove` | with no secret zero the game is one of C127 with two secrets for each user, the key and the difference of the blinding factors; C127 and the steps of C129 lead to random images; then a change of variables in the differences makes the new commitments, and all that is seen, independent of who is behind a pseudonym; secrets are zero with probability at most 2 m / |F| | proved, 2 theorems |
| C164 Nobody can spend a coin without its owner's key | `Props/LedgerTheft.lean`: `Thief`, `Thief.step`, the game with the calls of C162 (`spendInput`) on the models of `DualKey` and `Prove`, and `Thief.Steals`, with the model of `Verify` | with no secret zero the game is one of C115, in which every vector of the key of a coin and any point counts as published; the second column then has offsets that exist but need not be known, and the scalar found for the first column uses only the first | proved, 1 theorems |
| C165 Nobody can make somebody else's coin unspendable | the game of C164, `Props/LedgerTheft.lean`; `Props/LedgerBurn.lean` | as C116, but with the answers that may help the attacker counted for the keys of the coins only (`scorches`): a question to the hash function and the first key of a member determine the excess, whatever the second key is; then C112 with the second column as in C164 | proved, 1 theorems |
| C166 An input has the image of a coin in its ring, so that a coin cannot be spent twice | the game of C164, `Props/LedgerTheft.lean`; `Props/LedgerDouble.lean` | as C117, but with the answers that may help the attacker counted for pairs of keys of coins (`lucky1`), since the second keys do not matter for the excess (C165) | proved, 1 theorems |

The exact theorem names are in `MANIFEST.json`, the axioms of each in `AXIOMS.txt`.

## What is not modelled

* Timing other than the sequence of calls and tests made by packages mlsag and blsag (C134) by rangeproof.Prove (C135) and by package bls (C148), memory consumption other than the elements allocated by the decoders (C87), the operations counted for `Verify` of range
  proofs (C123) and the hashes counted for package merkletree (C130), garbage collection.
* `String`/`fmt` output, benchmarks, tests, and the text of wrapped errors.
* The internals of go-ristretto, bn256, x/crypto (SHA3, Blake2b), xxhash, `math/rand` and `crypto/rand`. For `math/rand` only
  "the permutation is a function of the seed" (C80) and its documentation (C145) are used. `Model/Keccak.lean` and `Model/StdHash.lean` write out SHA3, BLAKE2b
  and xxHash64 from their specifications, to run the fixtures of the repository's tests (C122); no other theorem uses them.
* Data races other than on `rangeproof.M` (C98 to C106), on the memory of Merkle payloads (C124), on a shared Pedersen value (C125),
  on a shared Apk or BLS signature (C132), on a shared DualKey (C136), on a shared Merkle tree (C138), on a shared hash handle (C144) and on the generator of math/rand (C145);
  in these, memory accesses are atomic and in program order, while Go promises less for programs with data races.
* Sharing of slices inside `Verify` of innerproduct and inside rangeproof, where a slice is never written after it was handed out,
  except for the append in `Prove` to the caller's slice of amounts (C90). For seeds, transcripts, vectors and
  `innerproduct.Generate`, sharing is modelled (C91 to C94).
* What the group operations of ristretto255 do on the Go zero value of a point, except for the assumption in C96.

Two functions that nothing calls (`isNumInList`, `readerToPoint` of mlsag) are modelled for completeness.

## Mutation tests

`seeded/LOG.jsonl` has one line per mutant: a realistic bug is put into one definition of a copy of the model, everything that
depends on it is rebuilt, and the theorems whose proofs break are listed. "Detected" means that a proof no longer checks; for a
proof by a robust tactic this also means that the statement became false or unprovable by the same argument, and mutants that
survive are examined: either the mutant is equivalent (said so in the log), or the theorems are tightened until it is caught.
