import Verif.Model.Aes
import Verif.Model.Blocked
import Verif.Model.Circuit
import Verif.Model.CircuitTypes
import Verif.Model.Cmt
import Verif.Model.Compiler
import Verif.Model.CompilerText
import Verif.Model.FastTrack
import Verif.Model.FiatShamir
import Verif.Model.Fp
import Verif.Model.Gen
import Verif.Model.InputVpd
import Verif.Model.LanczosDirect
import Verif.Model.LanczosGen
import Verif.Model.Loop
import Verif.Model.Matmul
import Verif.Model.MerkleGen
import Verif.Model.Mm
import Verif.Model.Multivariate
import Verif.Model.OldCompiler
import Verif.Model.ParaRaw
import Verif.Model.ParaReader
import Verif.Model.ParaTrack
import Verif.Model.Poly
import Verif.Model.ProgramTypes
import Verif.Model.RawExpr
import Verif.Model.RawStmts
import Verif.Model.Reader
import Verif.Model.Sha256Bin
import Verif.Model.Sha256Four
import Verif.Model.Sha256Gen
import Verif.Model.SignedVpd
import Verif.Model.Stats
import Verif.Model.Tables
import Verif.Model.Text
import Verif.Model.Threads
import Verif.Model.TradReader
import Verif.Model.Transcript
import Verif.Model.U256
import Verif.Model.U512
import Verif.Model.Vpd
import Verif.Model.ZkProver
import Verif.Model.ZkVerifier
import Verif.Proofs.AddMultFile
import Verif.Proofs.Aes
import Verif.Proofs.AesTables
import Verif.Proofs.Attack
import Verif.Proofs.Blocked
import Verif.Proofs.BlockedAttack
import Verif.Proofs.BlockedComplete
import Verif.Proofs.BlockedSound
import Verif.Proofs.Cmt
import Verif.Proofs.CmtComplete
import Verif.Proofs.CmtSound
import Verif.Proofs.CompilerAccepted
import Verif.Proofs.CompilerDag
import Verif.Proofs.CompilerFile
import Verif.Proofs.CompilerGood
import Verif.Proofs.CompilerLayers
import Verif.Proofs.CompilerLevels
import Verif.Proofs.CompilerLines
import Verif.Proofs.CompilerMerge
import Verif.Proofs.CompilerOutputs
import Verif.Proofs.CompilerParallel
import Verif.Proofs.CompilerRelay
import Verif.Proofs.CompilerSize
import Verif.Proofs.CompilerSucceeds
import Verif.Proofs.CompilerSucceeds2
import Verif.Proofs.CompilerSucceeds3
import Verif.Proofs.CompilerSucceeds4
import Verif.Proofs.CompilerText
import Verif.Proofs.CompilerValue
import Verif.Proofs.CompilerWire
import Verif.Proofs.ConstantCount
import Verif.Proofs.ConstantLayers
import Verif.Proofs.Constants
import Verif.Proofs.Counting
import Verif.Proofs.Dummy
import Verif.Proofs.Evaluate
import Verif.Proofs.FastTrack
import Verif.Proofs.FastTrackComplete
import Verif.Proofs.FiatShamir
import Verif.Proofs.FiatShamirAttack
import Verif.Proofs.FieldBits
import Verif.Proofs.FileValue
import Verif.Proofs.FileWf
import Verif.Proofs.Gates
import Verif.Proofs.Gen
import Verif.Proofs.Gmp
import Verif.Proofs.InputVpd
import Verif.Proofs.LanczosDirect
import Verif.Proofs.LanczosDirectFile
import Verif.Proofs.LanczosLevels
import Verif.Proofs.LanczosProgram
import Verif.Proofs.LanczosWiring
import Verif.Proofs.Layer
import Verif.Proofs.Matmul
import Verif.Proofs.Merkle
import Verif.Proofs.MerkleComplete
import Verif.Proofs.MerkleOk
import Verif.Proofs.MerkleWiring
import Verif.Proofs.Mle
import Verif.Proofs.Mm
import Verif.Proofs.MmRounds
import Verif.Proofs.MultiExp
import Verif.Proofs.Multivariate
import Verif.Proofs.OldCompilerFile
import Verif.Proofs.OldCompilerNames
import Verif.Proofs.OldCompilerRead
import Verif.Proofs.OldCompilerRelay
import Verif.Proofs.OldCompilerSort
import Verif.Proofs.OldCompilerValue
import Verif.Proofs.Outcome
import Verif.Proofs.ParaComplete
import Verif.Proofs.ParaInit
import Verif.Proofs.ParaRace
import Verif.Proofs.ParaReader
import Verif.Proofs.ParaSched
import Verif.Proofs.ParaUpdate
import Verif.Proofs.ParaVRes
import Verif.Proofs.PreInput
import Verif.Proofs.Prime
import Verif.Proofs.ProgramCheck
import Verif.Proofs.ProofFile
import Verif.Proofs.RawExpr
import Verif.Proofs.Reader
import Verif.Proofs.ReaderEval
import Verif.Proofs.Sha256Accept
import Verif.Proofs.Sha256Arith
import Verif.Proofs.Sha256Bin
import Verif.Proofs.Sha256Four
import Verif.Proofs.Sha256FourCompiled
import Verif.Proofs.Sha256FourProgram
import Verif.Proofs.Sha256Levels
import Verif.Proofs.Sha256Outputs
import Verif.Proofs.Sha256Program
import Verif.Proofs.Sha256Rand
import Verif.Proofs.Sha256Run
import Verif.Proofs.Sha256Sem
import Verif.Proofs.Sha256Size
import Verif.Proofs.Sha256Str
import Verif.Proofs.Sha256WireFacts
import Verif.Proofs.Sha256Wires
import Verif.Proofs.Soundness
import Verif.Proofs.SoundnessBound
import Verif.Proofs.Splice
import Verif.Proofs.Stats
import Verif.Proofs.Sumcheck
import Verif.Proofs.Tables
import Verif.Proofs.Text
import Verif.Proofs.TextNumbers
import Verif.Proofs.Threads
import Verif.Proofs.TradReader
import Verif.Proofs.Transcript
import Verif.Proofs.U256
import Verif.Proofs.U512
import Verif.Proofs.Vpd
import Verif.Proofs.VpdForm
import Verif.Proofs.VpdR
import Verif.Proofs.VpdTest
import Verif.Proofs.ZkAttack
import Verif.Proofs.ZkComplete
import Verif.Proofs.ZkConstants
import Verif.Proofs.ZkHiding
import Verif.Proofs.ZkLate
import Verif.Proofs.ZkLayer
import Verif.Proofs.ZkLog
import Verif.Proofs.ZkMask
import Verif.Proofs.ZkMasked
import Verif.Proofs.ZkPredicates
import Verif.Proofs.ZkRepairComplete
import Verif.Proofs.ZkRounds
import Verif.Proofs.ZkSound
import Verif.Proofs.ZkSoundBound
import Verif.Proofs.ZkStricter
import Verif.Proofs.ZkTruth
import Verif.Proofs.ZkViewBij
import Verif.Proofs.ZkViewCount
import Verif.Proofs.ZkViewEnd
import Verif.Proofs.ZkViewLayer
import Verif.Proofs.ZkViewRel
import Verif.Proofs.ZkViewRun
import Verif.Proofs.ZkViewShift
import Verif.Props.Aes
import Verif.Props.BitLength
import Verif.Props.Blocked
import Verif.Props.BlockedSound
import Verif.Props.Circuit
import Verif.Props.Cmt
import Verif.Props.CmtSound
import Verif.Props.CompiledProofs
import Verif.Props.Compiler
import Verif.Props.CompilerAccepts
import Verif.Props.CompilerOutputs
import Verif.Props.CompilerSize
import Verif.Props.CompilerText
import Verif.Props.Examples
import Verif.Props.FastTrack
import Verif.Props.FiatShamir
import Verif.Props.Field
import Verif.Props.Gen
import Verif.Props.Inputs
import Verif.Props.Lanczos
import Verif.Props.LanczosDirect
import Verif.Props.MaskQuery
import Verif.Props.Matmul
import Verif.Props.Merkle
import Verif.Props.Mm
import Verif.Props.Multivariate
import Verif.Props.Numbers
import Verif.Props.OldCompiler
import Verif.Props.OneInput
import Verif.Props.ZkRelay
import Verif.Props.ParaProgram
import Verif.Props.ParaRaw
import Verif.Props.ParaTrack
import Verif.Props.ProofFile
import Verif.Props.RawStmts
import Verif.Props.Reader
import Verif.Props.Sha256
import Verif.Props.Sha256Bin
import Verif.Props.Sha256Four
import Verif.Props.Sha256FourCompiled
import Verif.Props.Sha256Outputs
import Verif.Props.Sha256Rand
import Verif.Props.SignedVpd
import Verif.Props.Soundness
import Verif.Props.Stats
import Verif.Props.TradPrograms
import Verif.Props.Transcript
import Verif.Props.Vpd
import Verif.Props.Zk
import Verif.Props.ZkConstants
import Verif.Props.ZkHiding
import Verif.Props.ZkLate
import Verif.Props.ZkRepair
import Verif.Props.ZkRounds
import Verif.Props.ZkSoundness
import Verif.Props.ZkView
import Verif.Spec.Aes
import Verif.Spec.BlockCoins
import Verif.Spec.Blocked
import Verif.Spec.Circuit
import Verif.Spec.Cmt
import Verif.Spec.Coins
import Verif.Spec.Constants
import Verif.Spec.Field
import Verif.Spec.File
import Verif.Spec.Gkr
import Verif.Spec.Lanczos
import Verif.Spec.LanczosDirect
import Verif.Spec.Local
import Verif.Spec.Masked
import Verif.Spec.MatrixProduct
import Verif.Spec.Merkle
import Verif.Spec.Mle
import Verif.Spec.OldProgram
import Verif.Spec.OtherInputs
import Verif.Spec.Parallel
import Verif.Spec.Program
import Verif.Spec.ProofFile
import Verif.Spec.Sha256
import Verif.Spec.Stats
import Verif.Spec.Text
import Verif.Spec.TradFile
import Verif.Spec.Transcript
import Verif.Spec.Vpd
import Verif.Spec.ZkRepair
import Verif.Spec.ZkView
