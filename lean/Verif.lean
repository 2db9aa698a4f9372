import Verif.Go.Base64
import Verif.Go.Core
import Verif.Go.Heap
import Verif.Go.IO
import Verif.Go.Slice
import Verif.Lemmas.Bls
import Verif.Lemmas.BlsHeap
import Verif.Lemmas.BnGroup
import Verif.Lemmas.BnOrder
import Verif.Lemmas.BnReal
import Verif.Lemmas.BnTwist
import Verif.Lemmas.CurveChain
import Verif.Lemmas.DecodeState
import Verif.Lemmas.IO
import Verif.Lemmas.IPCausal
import Verif.Lemmas.IPSound
import Verif.Lemmas.InnerProduct
import Verif.Lemmas.ListAlg
import Verif.Lemmas.Merkle
import Verif.Lemmas.MerkleBuilt
import Verif.Lemmas.MerkleTree
import Verif.Lemmas.MerkleVerify
import Verif.Lemmas.Mlsag
import Verif.Lemmas.MlsagConc
import Verif.Lemmas.Pedersen
import Verif.Lemmas.PointOracle
import Verif.Lemmas.PolyRoots
import Verif.Lemmas.Pow2
import Verif.Lemmas.PrimeBn
import Verif.Lemmas.PrimeEll
import Verif.Lemmas.RPAccept
import Verif.Lemmas.RPAlg
import Verif.Lemmas.RPFold
import Verif.Lemmas.RPFoldEnds
import Verif.Lemmas.RPGame
import Verif.Lemmas.RPHonest
import Verif.Lemmas.RPLucky
import Verif.Lemmas.RPMask
import Verif.Lemmas.RPProg
import Verif.Lemmas.RPProve
import Verif.Lemmas.RPSound
import Verif.Lemmas.RPTop
import Verif.Lemmas.RPUnwind
import Verif.Lemmas.RangeProof
import Verif.Lemmas.SecondMoment
import Verif.Lemmas.Trace
import Verif.Lemmas.TraceRP
import Verif.Lemmas.Weights
import Verif.Model.BitCommit
import Verif.Model.Bls
import Verif.Model.BlsConc
import Verif.Model.BlsHeap
import Verif.Model.Blsag
import Verif.Model.DecodeState
import Verif.Model.Hash
import Verif.Model.HashConc
import Verif.Model.HashMem
import Verif.Model.IPMem
import Verif.Model.InnerProduct
import Verif.Model.Keccak
import Verif.Model.MathRand
import Verif.Model.Merkle
import Verif.Model.MerkleConc
import Verif.Model.MerkleMem
import Verif.Model.MerkleShare
import Verif.Model.MerkleWork
import Verif.Model.Mlsag
import Verif.Model.MlsagConc
import Verif.Model.MlsagMem
import Verif.Model.MlsagSmall
import Verif.Model.PedConc
import Verif.Model.PedMem
import Verif.Model.Pedersen
import Verif.Model.Pointers
import Verif.Model.Poly
import Verif.Model.RPConc
import Verif.Model.RPMem
import Verif.Model.RPProg
import Verif.Model.RangeProof
import Verif.Model.Ristretto
import Verif.Model.StdHash
import Verif.Model.Trace
import Verif.Model.TraceBls
import Verif.Model.TraceRP
import Verif.Model.VecInt
import Verif.Model.VecMem
import Verif.Model.Vector
import Verif.Model.Via
import Verif.Model.Work
import Verif.Props.BadRandom
import Verif.Props.Balance
import Verif.Props.Binding
import Verif.Props.Bls
import Verif.Props.BlsBase
import Verif.Props.BlsCases
import Verif.Props.BlsCodec
import Verif.Props.BlsConc
import Verif.Props.BlsErrors
import Verif.Props.BlsHeap
import Verif.Props.BlsRogue
import Verif.Props.Blsag
import Verif.Props.BlsagAnon
import Verif.Props.BlsagForge
import Verif.Props.BlsagForking
import Verif.Props.BlsagFrame
import Verif.Props.BlsagLink
import Verif.Props.BnOrder
import Verif.Props.Completeness
import Verif.Props.Convert
import Verif.Props.Counts
import Verif.Props.Decode
import Verif.Props.DecodePtr
import Verif.Props.DecodeState
import Verif.Props.GenRelations
import Verif.Props.Hash
import Verif.Props.HashConc
import Verif.Props.HashMem
import Verif.Props.IPCases
import Verif.Props.IPGen
import Verif.Props.IPMem
import Verif.Props.IPShape
import Verif.Props.IPSound
import Verif.Props.InnerProduct
import Verif.Props.Ledger
import Verif.Props.LedgerAnon
import Verif.Props.LedgerBurn
import Verif.Props.LedgerCrash
import Verif.Props.LedgerDdh
import Verif.Props.LedgerDouble
import Verif.Props.LedgerHide
import Verif.Props.LedgerTheft
import Verif.Props.LedgerWire
import Verif.Props.MathRand
import Verif.Props.MemCases
import Verif.Props.Merkle
import Verif.Props.MerkleCases
import Verif.Props.MerkleConc
import Verif.Props.MerkleErrors
import Verif.Props.MerkleMem
import Verif.Props.MerkleOracle
import Verif.Props.MerkleSame
import Verif.Props.MerkleShare
import Verif.Props.MerkleTamper
import Verif.Props.MerkleWork
import Verif.Props.Mlsag
import Verif.Props.MlsagAnon
import Verif.Props.MlsagBalance
import Verif.Props.MlsagCalls
import Verif.Props.MlsagCases
import Verif.Props.MlsagChosen
import Verif.Props.MlsagCodec
import Verif.Props.MlsagConc
import Verif.Props.MlsagDdh
import Verif.Props.MlsagDual
import Verif.Props.MlsagForking
import Verif.Props.MlsagFrame
import Verif.Props.MlsagHiding
import Verif.Props.MlsagLink
import Verif.Props.MlsagMalleable
import Verif.Props.MlsagMem
import Verif.Props.MlsagSecrets
import Verif.Props.MlsagSmall
import Verif.Props.Neutral
import Verif.Props.PedConc
import Verif.Props.PedMem
import Verif.Props.Pedersen
import Verif.Props.RPCases
import Verif.Props.RPCodec
import Verif.Props.RPDebug
import Verif.Props.RPDebugConc
import Verif.Props.RPDisturbed
import Verif.Props.RPFiatShamir
import Verif.Props.RPHide
import Verif.Props.RPMem
import Verif.Props.RPProg
import Verif.Props.RPProgOut
import Verif.Props.RPProveConc
import Verif.Props.RPShape
import Verif.Props.RPSound
import Verif.Props.RPState
import Verif.Props.RPUnique
import Verif.Props.RPVerConc
import Verif.Props.RPVerOut
import Verif.Props.RPWork
import Verif.Props.RPZk
import Verif.Props.RangeProof
import Verif.Props.Received
import Verif.Props.RepoTests
import Verif.Props.RingCases
import Verif.Props.Separation
import Verif.Props.Shuffle
import Verif.Props.Streams
import Verif.Props.Trace
import Verif.Props.TraceBls
import Verif.Props.TraceRP
import Verif.Props.Transaction
import Verif.Props.VecCommit
import Verif.Props.VecInt
import Verif.Props.VecMem
import Verif.Props.Vector
import Verif.Props.Via
import Verif.Props.WeakFS
import Verif.Spec.Bls
import Verif.Spec.BlsHeap
import Verif.Spec.BlsRogue
import Verif.Spec.Blsag
import Verif.Spec.BnCurve
import Verif.Spec.Chain
import Verif.Spec.Forking
import Verif.Spec.Grammar
import Verif.Spec.IPA
import Verif.Spec.Merkle
import Verif.Spec.Mlsag
import Verif.Spec.MlsagChosen
import Verif.Spec.MlsagDdh
import Verif.Spec.MlsagHiding
import Verif.Spec.Oracle
import Verif.Spec.PointOracle
import Verif.Spec.RPAlgebraic
import Verif.Spec.RPProg
import Verif.Spec.RPSound
import Verif.Spec.RPUnique
import Verif.Spec.RandomHash
import Verif.Spec.RangeProof
import Verif.Spec.Trace
import Verif.Spec.TraceRP
