import Verif.Basic
import Verif.Model.Params
import Verif.Model.Fq
import Verif.Model.Keccak
import Verif.Model.Sampler
import Verif.Model.Monomial
import Verif.Model.Codes
import Verif.Model.SeedTree
import Verif.Model.Less
import Verif.Model.Sign
import Verif.Spec.Stream
import Verif.Spec.Rref
import Verif.Proofs.Fq
import Verif.Proofs.Params
import Verif.Proofs.Sampler
import Verif.Proofs.Monomial
import Verif.Proofs.RowEq
import Verif.Proofs.Rref
import Verif.Proofs.Lex
import Verif.Spec.Bits
import Verif.Spec.Commit
import Verif.Proofs.Pack
import Verif.Proofs.Action
import Verif.Proofs.RrefPack
import Verif.Proofs.Pivots
import Verif.Proofs.Commit
import Verif.Spec.Keccak
import Verif.Proofs.Response
import Verif.Proofs.Soundness
import Verif.Proofs.Sponge
import Verif.Proofs.KeccakF
import Verif.Proofs.Fips
import Verif.Spec.SeedTree
import Verif.Proofs.Tree
import Verif.Proofs.SeedTree
import Verif.Proofs.Fuel
import Verif.Proofs.Challenge
import Verif.Spec.Less
import Verif.Proofs.Stream
import Verif.Proofs.G0
import Verif.Proofs.ChallengeSpec
import Verif.Proofs.CommitSpec
import Verif.Proofs.Verify
import Verif.Proofs.Keygen
import Verif.Proofs.Sign
import Verif.Proofs.Complete
import Verif.Proofs.Api
import Verif.Proofs.Overread
import Verif.Proofs.Unique
import Verif.Props.Scheme
import Verif.Proofs.Open
import Verif.Props.Toy
import Verif.Props.Seeds
import Verif.Props.Api
import Verif.Props.History
import Verif.Spec.Extract
import Verif.Proofs.Extract
import Verif.Proofs.Shuffle
import Verif.Props.Soundness
import Verif.Props.Monomials
import Verif.Spec.SameCode
import Verif.Props.Codes
import Verif.Props.Params
import Verif.Model.Trace
import Verif.Props.ConstantTime
import Verif.Props.Field
import Verif.Props.Hash
import Verif.Model.Vec
import Verif.Model.Opt
import Verif.Proofs.OptFq
import Verif.Proofs.OptMul
import Verif.Proofs.OptRref
import Verif.Proofs.OptRrefSim
import Verif.Proofs.OptSim
import Verif.Proofs.OptBad
import Verif.Props.Opt
import Verif.Model.KatRng
import Verif.Spec.KatRng
import Verif.Proofs.KatRng
import Verif.Props.KatRng
import Verif.Model.KatFile
import Verif.Spec.KatFile
import Verif.Proofs.KatFile
import Verif.Proofs.KatRun
import Verif.Props.KatFile
import Verif.Proofs.ToyData
import Verif.Proofs.ToyRounds
import Verif.Proofs.ToyRun
import Verif.Props.Open
import Verif.Proofs.Unreduced
import Verif.Proofs.AnyKey
import Verif.Props.AnyKey
import Verif.Props.Run
import Verif.Props.Cases
import Verif.Model.KeccakMem
import Verif.Proofs.KeccakMem
import Verif.Props.HashMem
import Verif.Props.Simulator
import Verif.Proofs.Uniform
import Verif.Proofs.UniformDigest
import Verif.Props.Uniform
import Verif.Props.Shuffle
import Verif.Props.Challenges
import Verif.Props.Termination
import Verif.Props.Randomness
import Verif.Model.Threads
import Verif.Proofs.Threads
import Verif.Proofs.Race
import Verif.Props.Threads
import Verif.Props.Binding
import Verif.Spec.Oracle
import Verif.Proofs.Oracle
import Verif.Spec.Forger
import Verif.Props.Forger
import Verif.Model.Testbench
import Verif.Proofs.Testbench
import Verif.Props.Testbench
import Verif.Props.Unseeded
import Verif.Model.Bench
import Verif.Spec.Statistics
import Verif.Props.Bench
import Verif.Props.TestRun
import Verif.Props.UnseededRun
import Verif.Model.Alias
import Verif.Props.Alias
import Verif.Props.AliasRun
import Verif.Spec.Domain
import Verif.Props.Domain
import Verif.Model.SecretTrace
import Verif.Props.SecretTrace
import Verif.Model.Print
import Verif.Spec.Numbers
import Verif.Props.Print
import Verif.Model.ParamScript
import Verif.Props.ParamScript
import Verif.Model.MemBench
import Verif.Props.MemBench
import Verif.Model.KeccakAsm
import Verif.Spec.LaneOrder
import Verif.Proofs.KeccakAsm
import Verif.Props.KeccakAsm
import Verif.Model.KeccakBytes
import Verif.Spec.StateBytes
import Verif.Proofs.KeccakBytes
import Verif.Proofs.KeccakAbsorb
import Verif.Props.KeccakBytes
import Verif.Spec.Chosen
import Verif.Proofs.Average
import Verif.Proofs.Chosen
import Verif.Proofs.ChosenBound
import Verif.Props.Chosen
import Verif.Spec.Rewind
import Verif.Proofs.Rewind
import Verif.Proofs.RewindBound
import Verif.Props.Rewind
import Verif.Spec.SeedGame
import Verif.Proofs.SeedGame
import Verif.Props.SeedGame
import Verif.Model.ByteOrder
import Verif.Proofs.ByteOrder
import Verif.Proofs.ByteOrderScheme
import Verif.Proofs.BigData
import Verif.Proofs.BigRound0
import Verif.Proofs.BigRound2
import Verif.Proofs.BigKey
import Verif.Proofs.BigRun
import Verif.Props.ByteOrder
import Verif.Model.VecMore
import Verif.Props.VecMacros
import Verif.Model.InPlace
import Verif.Proofs.InPlace
import Verif.Props.InPlace
import Verif.Model.SortCost
import Verif.Proofs.SortCost
import Verif.Props.SortCost
import Verif.Model.FqVariants
import Verif.Props.FqVariants
import Verif.Model.Debug
import Verif.Proofs.Debug
import Verif.Props.Debug
import Verif.Model.VerifyCost
import Verif.Proofs.VerifyCost
import Verif.Props.VerifyCost
import Verif.Proofs.SeedCount
import Verif.Props.SeedCount
import Verif.Props.SigLength
import Verif.Props.HashOrder
import Verif.Model.SignCost
import Verif.Props.SignCost
import Verif.Props.BlockCases
import Verif.Props.ToolCases
import Verif.Props.GameCases
import Verif.Props.Copies
import Verif.Spec.KeccakInv
import Verif.Model.KeyContext
import Verif.Proofs.KeccakInv
import Verif.Props.Backtrack
import Verif.Model.Interrupt
import Verif.Props.Interrupt
import Verif.Props.InterruptKey
import Verif.Model.Fault
import Verif.Props.Fault
import Verif.Props.FaultChallenge
import Verif.Props.Sets
import Verif.Props.SetCases
