import Verif.Audit
import Verif.Model.Allocator
import Verif.Model.Basic
import Verif.Model.Catch
import Verif.Model.CharSign
import Verif.Model.Cli
import Verif.Model.Consensus
import Verif.Model.ConsensusFile
import Verif.Model.ConsensusGen
import Verif.Model.ConsensusReadf
import Verif.Model.ConsensusReport
import Verif.Model.Crypto
import Verif.Model.CryptoLen
import Verif.Model.CryptoLimits
import Verif.Model.CryptoRes
import Verif.Model.EniBase
import Verif.Model.EniMem
import Verif.Model.EniTypes
import Verif.Model.EntryAlloc
import Verif.Model.HashAlloc
import Verif.Model.HashArrays
import Verif.Model.HashBase
import Verif.Model.HashClient
import Verif.Model.HashCost
import Verif.Model.HashIterator
import Verif.Model.HashLoop
import Verif.Model.HashTable
import Verif.Model.HashThrow
import Verif.Model.HashVary
import Verif.Model.JsonOwner
import Verif.Model.JsonParser
import Verif.Model.JsonTests
import Verif.Model.JsonTool
import Verif.Model.JsonValue
import Verif.Model.OneDef
import Verif.Model.OpsMem
import Verif.Model.Overload
import Verif.Model.OwnerArray
import Verif.Model.OwnerKind
import Verif.Model.ParserMem
import Verif.Model.PointerIterator
import Verif.Model.PrintCount
import Verif.Model.PrintMem
import Verif.Model.PrintStream
import Verif.Model.PrintValue
import Verif.Model.ProbeCost
import Verif.Model.PyDumps
import Verif.Model.Reverse
import Verif.Model.ScanCost
import Verif.Model.Scrypt
import Verif.Model.ScryptWork
import Verif.Model.StringEntry
import Verif.Model.StringHasher
import Verif.Model.StringMap
import Verif.Model.TestLib
import Verif.Model.Vector
import Verif.Model.VectorIter
import Verif.Model.VectorObj
import Verif.Model.VectorThrow
import Verif.Proofs.Allocator
import Verif.Proofs.Catch
import Verif.Proofs.CharSign
import Verif.Proofs.ConsensusReport
import Verif.Proofs.Crypto
import Verif.Proofs.CryptoRes
import Verif.Proofs.EniBase
import Verif.Proofs.EniMem
import Verif.Proofs.FreshValue
import Verif.Proofs.HashAlloc
import Verif.Proofs.HashArrays
import Verif.Proofs.HashCost
import Verif.Proofs.HashCount
import Verif.Proofs.HashDiff
import Verif.Proofs.HashErase
import Verif.Proofs.HashFold
import Verif.Proofs.HashHistory
import Verif.Proofs.HashIter
import Verif.Proofs.HashIterLaws
import Verif.Proofs.HashLayout
import Verif.Proofs.HashLimits
import Verif.Proofs.HashLoop
import Verif.Proofs.HashOps
import Verif.Proofs.HashSim
import Verif.Proofs.HashThrow
import Verif.Proofs.HashVary
import Verif.Proofs.HashWeak
import Verif.Proofs.HashWorld
import Verif.Proofs.Hasher
import Verif.Proofs.JsonCallbacks
import Verif.Proofs.JsonComplete
import Verif.Proofs.JsonDepth
import Verif.Proofs.JsonLayout
import Verif.Proofs.JsonLex
import Verif.Proofs.JsonOrder
import Verif.Proofs.JsonOwner
import Verif.Proofs.JsonOwnerRun
import Verif.Proofs.JsonParse
import Verif.Proofs.JsonPrint
import Verif.Proofs.JsonSound
import Verif.Proofs.JsonTool
import Verif.Proofs.JsonToolSafe
import Verif.Proofs.OneDef
import Verif.Proofs.OpsMem
import Verif.Proofs.OwnerArray
import Verif.Proofs.OwnerCount
import Verif.Proofs.OwnerCountRun
import Verif.Proofs.OwnerKind
import Verif.Proofs.ParserFinal
import Verif.Proofs.ParserLoss
import Verif.Proofs.ParserMem
import Verif.Proofs.ParserRun
import Verif.Proofs.PrintCount
import Verif.Proofs.PrintMem
import Verif.Proofs.PrintStream
import Verif.Proofs.PrintValue
import Verif.Proofs.ProbeCost
import Verif.Proofs.PyInt
import Verif.Proofs.RsaWork
import Verif.Proofs.ScanCost
import Verif.Proofs.Scrypt
import Verif.Proofs.ScryptOp
import Verif.Proofs.ScryptWork
import Verif.Proofs.ScryptWorkIter
import Verif.Proofs.StringEntry
import Verif.Proofs.StringMap
import Verif.Proofs.Tokens
import Verif.Proofs.Vector
import Verif.Proofs.VectorCapacity
import Verif.Proofs.VectorIter
import Verif.Proofs.VectorObj
import Verif.Proofs.VectorObs
import Verif.Proofs.VectorThrow
import Verif.Proofs.VectorThrowCount
import Verif.Props.Allocator
import Verif.Props.Catch
import Verif.Props.CharSign
import Verif.Props.Cli
import Verif.Props.Consensus
import Verif.Props.ConsensusFile
import Verif.Props.ConsensusGen
import Verif.Props.ConsensusReadf
import Verif.Props.ConsensusReport
import Verif.Props.ConsensusShipped
import Verif.Props.Crypto
import Verif.Props.CryptoLen
import Verif.Props.CryptoRes
import Verif.Props.Docs
import Verif.Props.DocsUnquoted
import Verif.Props.EniBase
import Verif.Props.EniMem
import Verif.Props.EniTypes
import Verif.Props.EntryAlloc
import Verif.Props.Gas
import Verif.Props.HashAlloc
import Verif.Props.HashArrays
import Verif.Props.HashCost
import Verif.Props.HashErase
import Verif.Props.HashIterLaws
import Verif.Props.HashLimits
import Verif.Props.HashLoop
import Verif.Props.HashTable
import Verif.Props.HashThrow
import Verif.Props.HashVary
import Verif.Props.Hasher
import Verif.Props.Json
import Verif.Props.JsonDepth
import Verif.Props.JsonOwner
import Verif.Props.JsonPrint
import Verif.Props.JsonTests
import Verif.Props.JsonTool
import Verif.Props.JsonToolSafe
import Verif.Props.OneDef
import Verif.Props.OpArgs
import Verif.Props.OpsMem
import Verif.Props.Overload
import Verif.Props.OwnerArray
import Verif.Props.OwnerCount
import Verif.Props.OwnerKind
import Verif.Props.ParserMem
import Verif.Props.PrintCount
import Verif.Props.PrintMem
import Verif.Props.PrintStream
import Verif.Props.PrintValue
import Verif.Props.ProbeCost
import Verif.Props.Promise
import Verif.Props.PyDumps
import Verif.Props.Reverse
import Verif.Props.RsaWork
import Verif.Props.ScanCost
import Verif.Props.Scrypt
import Verif.Props.ScryptWork
import Verif.Props.Session
import Verif.Props.StringEntry
import Verif.Props.StringMap
import Verif.Props.TestLib
import Verif.Props.Tools
import Verif.Props.Vector
import Verif.Props.VectorCapacity
import Verif.Props.VectorIter
import Verif.Props.VectorObj
import Verif.Props.VectorReserve
import Verif.Props.VectorThrow
import Verif.Props.Vectors
import Verif.Spec.Allocator
import Verif.Spec.Catch
import Verif.Spec.CharSign
import Verif.Spec.Cli
import Verif.Spec.Eni
import Verif.Spec.EniMem
import Verif.Spec.FMap
import Verif.Spec.FreshValue
import Verif.Spec.HashDiff
import Verif.Spec.HashThrow
import Verif.Spec.HashVary
import Verif.Spec.Hasher
import Verif.Spec.Hex
import Verif.Spec.Json
import Verif.Spec.JsonDepth
import Verif.Spec.KeyText
import Verif.Spec.OneDef
import Verif.Spec.OpsMem
import Verif.Spec.Overload
import Verif.Spec.Owner
import Verif.Spec.OwnerArray
import Verif.Spec.OwnerCount
import Verif.Spec.OwnerKind
import Verif.Spec.ParserMem
import Verif.Spec.PrintCount
import Verif.Spec.PrintMem
import Verif.Spec.PrintStream
import Verif.Spec.PrintValue
import Verif.Spec.ProbeCost
import Verif.Spec.PyInt
import Verif.Spec.Rsa
import Verif.Spec.RsaRes
import Verif.Spec.RsaWork
import Verif.Spec.SMapSpec
import Verif.Spec.Scrypt
import Verif.Spec.Session
import Verif.Spec.TableSpec
import Verif.Spec.Tokens
import Verif.Spec.VectorCapacity
import Verif.Spec.VectorObj
import Verif.Spec.VectorSpec
import Verif.Spec.VectorThrow
import Verif.Spec.WorldSpec
