import Verif.Net.Prog
import Verif.Net.Exec
import Verif.Net.WP
import Verif.Net.MPC
import Verif.Rep3.Party
import Verif.Rep3.State
import Verif.Rep3.StateLemmas
import Verif.Rep3.Share
import Verif.Rep3.Arith
import Verif.Rep3.ArithLemmas
import Verif.Rep3.Reshare23Lemmas
import Verif.Rep3.History
import Verif.Rep3.ShareLemmas
import Verif.Spec.Sharing
import Verif.Spec.Tape
import Verif.Props.Demo
import Verif.Props.Sharing
import Verif.Props.Arith
import Verif.Spec.Program
import Verif.Spec.Simulator
import Verif.Rep3.Program
import Verif.Rep3.Privacy
import Verif.Props.Rng
import Verif.Props.Net
import Verif.Props.Program
import Verif.Rep3.Binary
import Verif.Rep3.Cols
import Verif.Rep3.BinaryLemmas
import Verif.Rep3.Detail
import Verif.Rep3.Adder
import Verif.Rep3.DetailLemmas
import Verif.Rep3.Conversion
import Verif.Rep3.ConversionLemmas
import Verif.Rep3.InjectLemmas
import Verif.Props.Binary
import Verif.Props.Conversion
import Verif.Ring.Ring
import Verif.Ring.RingLemmas
import Verif.Props.Ring
import Verif.Net.Local
import Verif.Spec.Shamir
import Verif.Shamir.Shamir
import Verif.Shamir.ShamirLemmas
import Verif.Shamir.Rng
import Verif.Shamir.Arith
import Verif.Shamir.OpenLemmas
import Verif.Shamir.RngLemmas
import Verif.Shamir.PairLemmas
import Verif.Shamir.KingLemmas
import Verif.Shamir.ArithLemmas
import Verif.Shamir.SetupLemmas
import Verif.Shamir.ShareLemmas
import Verif.Spec.Pairs
import Verif.Shamir.History
import Verif.Props.Shamir
import Verif.Bridge.BridgeLemmas
import Verif.Bridge.Rep3ToShamir
import Verif.Poly.Eval
import Verif.Poly.EvalLemmas
import Verif.Props.Point
import Verif.Rep3.Point
import Verif.Rep3.PointLemmas
import Verif.Shamir.PointLemmas
import Verif.Spec.Poly
import Verif.Curve.BackLemmas
import Verif.Curve.Convert
import Verif.Curve.ConvertLemmas
import Verif.Curve.PrivacyLemmas
import Verif.Props.Curve
import Verif.Spec.Curve
import Verif.Net.Join
import Verif.Ring.Lut
import Verif.Ring.LutLemmas
import Verif.Ring.Ohv
import Verif.Ring.OhvLemmas
import Verif.Props.Lut
import Verif.Ring.LutSharedLemmas
import Verif.Spec.Table
import Verif.Net.Two
import Verif.Props.Sort
import Verif.Ring.Sort
import Verif.Ring.SortLemmas
import Verif.Ring.SortProtoLemmas
import Verif.Ring.SortRank
import Verif.Props.Yao
import Verif.Spec.Garble
import Verif.Spec.Netlist
import Verif.Yao.Bristol
import Verif.Yao.BristolLemmas
import Verif.Yao.Circ
import Verif.Yao.CircLemmas
import Verif.Yao.CircuitLemmas
import Verif.Yao.Circuits
import Verif.Yao.ComputesLemmas
import Verif.Yao.ConstAddLemmas
import Verif.Yao.FieldCircuitLemmas
import Verif.Yao.GarbleLemmas
import Verif.Yao.Gate
import Verif.Props.SortNet
import Verif.Yao.SortCircLemmas
import Verif.Yao.SortNet
import Verif.Yao.SortNetLemmas
import Verif.Props.YaoConv
import Verif.Spec.YaoShare
import Verif.Yao.ConvLemmas
import Verif.Yao.Protocol
import Verif.Yao.ProtocolLemmas
import Verif.Yao.StreamLemmas
import Verif.Yao.ArithCircuitLemmas
import Verif.Yao.ArithCircuits
import Verif.Yao.Blueprint
import Verif.Yao.BlueprintLemmas
import Verif.Yao.BlueprintOps
import Verif.Props.YaoOps
import Verif.Spec.Digits
import Verif.Gadgets.Poseidon2
import Verif.Gadgets.Poseidon2Lin
import Verif.Spec.Poseidon2
import Verif.Gadgets.Poseidon2Exhausted
import Verif.Gadgets.Poseidon2Plain
import Verif.Gadgets.Poseidon2Rep3Lemmas
import Verif.Gadgets.Poseidon2Rounds
import Verif.Gadgets.Poseidon2ShamirLemmas
import Verif.Props.Poseidon2
import Verif.Gadgets.Merkle
import Verif.Gadgets.MerkleLemmas
import Verif.Gadgets.MerkleMPC
import Verif.Gadgets.MerklePlain
import Verif.Props.Merkle
import Verif.Spec.Merkle
import Verif.Groth16.DriverLemmas
import Verif.Groth16.Drivers
import Verif.Groth16.Fft
import Verif.Groth16.FftLemmas
import Verif.Groth16.KeyLemmas
import Verif.Groth16.Model
import Verif.Groth16.ProveLemmas
import Verif.Groth16.RootLemmas
import Verif.Props.Groth16
import Verif.Spec.Groth16
import Verif.CircomVm.Driver
import Verif.CircomVm.Rep3
import Verif.CircomVm.Rep3Lemmas
import Verif.CircomVm.Sim
import Verif.Net.TwoE
import Verif.Props.CircomVm
import Verif.CircomVm.Vm
import Verif.CircomVm.VmMap
import Verif.CircomVm.VmRel
import Verif.CircomVm.VmSim
import Verif.Props.Vm
import Verif.CircomVm.Source
import Verif.CircomVm.SourceExec
import Verif.CircomVm.SourceRef
import Verif.CircomVm.SourceRun
import Verif.CircomVm.SourceSem
import Verif.Props.VmSource
import Verif.CircomVm.SourceSpec
import Verif.Props.VmMeaning
import Verif.Spec.Circom
import Verif.CircomVm.AccelLemmas
import Verif.Props.VmAccel
import Verif.Spec.Accel
import Verif.CoCircom.Input
import Verif.CoCircom.InputLemmas
import Verif.CoCircom.SplitLemmas
import Verif.CoCircom.WitnessLemmas
import Verif.Props.Input
import Verif.Spec.Input
import Verif.CoCircom.SharedLemmas
import Verif.CoCircom.Witness
import Verif.Props.Witness
import Verif.Spec.Witness
import Verif.CoNoir.Acvm
import Verif.CoNoir.AcvmDrivers
import Verif.CoNoir.AcvmPlain
import Verif.CoNoir.AcvmRep3
import Verif.CoNoir.AcvmShamir
import Verif.CoNoir.AcvmSim
import Verif.CoNoir.AcvmSound
import Verif.Props.Acvm
import Verif.Spec.Acir
import Verif.Spec.AcirShares
import Verif.Net.Many
import Verif.Net.ManyE
import Verif.Plonk.CompleteLemmas
import Verif.Plonk.DomainLemmas
import Verif.Plonk.Model
import Verif.Plonk.OpenLemmas
import Verif.Plonk.PermLemmas
import Verif.Plonk.PolyLemmas
import Verif.Plonk.QuotientLemmas
import Verif.Plonk.Round3Lemmas
import Verif.Plonk.RoundLemmas
import Verif.Plonk.WireLemmas
import Verif.Props.Plonk
import Verif.Spec.Plonk
import Verif.Plonk.ArrayProd
import Verif.Plonk.Drivers
import Verif.Plonk.NetSim
import Verif.Plonk.PlainSim
import Verif.Plonk.Rep3Draws
import Verif.Plonk.Rep3Sim
import Verif.Plonk.ShamirSim
import Verif.Plonk.Sim
import Verif.Plonk.SimLocal
import Verif.Props.PlonkMpc
import Verif.Spec.PlonkDraws
import Verif.Plonk.Rep3Prove
import Verif.Plonk.SoundLemmas
import Verif.Props.PlonkSound
import Verif.Spec.PlonkSound
import Verif.Honk.Batching
import Verif.Honk.Degree
import Verif.Honk.ProverLemmas
import Verif.Honk.ProverRun
import Verif.Honk.RelationLemmas
import Verif.Honk.Relations
import Verif.Honk.Sumcheck
import Verif.Honk.Sums
import Verif.Honk.Univariate
import Verif.Honk.UnivariateLemmas
import Verif.Honk.VerifierLemmas
import Verif.Props.Honk
import Verif.Spec.Honk
import Verif.Honk.Cycles
import Verif.Honk.Lookup
import Verif.Honk.LookupLemmas
import Verif.Honk.MappingLemmas
import Verif.Honk.Oink
import Verif.Honk.OinkLemmas
import Verif.Honk.OinkRun
import Verif.Honk.PermLemmas
import Verif.Honk.Trace
import Verif.Honk.TraceLemmas
import Verif.Props.HonkLookup
import Verif.Props.HonkOink
import Verif.Props.HonkWhole
import Verif.Spec.HonkCircuit
import Verif.Spec.HonkLookup
import Verif.Honk.CoOink
import Verif.Honk.CoOinkDrivers
import Verif.Honk.CoOinkLemmas
import Verif.Props.HonkCo
import Verif.Spec.HonkMemory
import Verif.Honk.Build
import Verif.Honk.BuildAcir
import Verif.Honk.BuildExpr
import Verif.Honk.BuildFinal
import Verif.Honk.BuildLemmas
import Verif.Honk.BuildRange
import Verif.Honk.BuildSort
import Verif.Honk.BuildSound
import Verif.Props.HonkBuild
import Verif.Spec.HonkBuild
import Verif.Honk.BuildSame
import Verif.Props.HonkBuildSame
import Verif.Honk.BuildHonest
import Verif.Honk.BuildHonestAll
import Verif.Honk.BuildHonestExpr
import Verif.Honk.BuildHonestLimbs
import Verif.Honk.BuildHonestRange
import Verif.Honk.BuildHonestSort
import Verif.Honk.BuildHonestTags
import Verif.Props.HonkBuildHonest
import Verif.Honk.CoRelations
import Verif.Honk.CoRelationsSim
import Verif.Honk.CoRelationsValues
import Verif.Honk.CoSumcheck
import Verif.Honk.CoSumcheckDrivers
import Verif.Honk.CoSumcheckRounds
import Verif.Honk.CoSumcheckRun
import Verif.Honk.CoSumcheckSim
import Verif.Props.HonkCoSumcheck
import Verif.Honk.Shplemini
import Verif.Honk.ShpleminiFolds
import Verif.Honk.ShpleminiPolys
import Verif.Honk.ShpleminiRun
import Verif.Honk.ShpleminiVerify
import Verif.Props.HonkShplemini
import Verif.Spec.HonkOpening
import Verif.Honk.ShpleminiCo
import Verif.Honk.ShpleminiDrivers
import Verif.Props.HonkCoShplemini
import Verif.Honk.BuildFill
import Verif.Honk.BuildFillLemmas
import Verif.Honk.FullTable
import Verif.Honk.Ultra
import Verif.Honk.UltraLemmas
import Verif.Honk.UltraRun
import Verif.Props.HonkEnd
import Verif.Props.HonkFull
import Verif.Honk.CoUltra
import Verif.Honk.CoUltraDrivers
import Verif.Honk.CoUltraLemmas
import Verif.Props.HonkCoEnd
import Verif.Props.HonkSound
import Verif.Honk.ShpleminiSound
import Verif.Props.HonkArgument
import Verif.Props.HonkOpening
import Verif.Axioms
