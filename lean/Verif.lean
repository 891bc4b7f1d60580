import Verif.Params
import Verif.Text.Model
import Verif.Text.Spec
import Verif.Text.Lemmas
import Verif.Text.Faults
import Verif.Text.Grammar
import Verif.Props.TextProps
import Verif.Challenge.Model
import Verif.Challenge.Spec
import Verif.Challenge.Lemmas
import Verif.Props.ChallengeProps
import Verif.Props.ThreadProps
import Verif.Util.Model
import Verif.Props.UtilProps
import Verif.Curve.Model
import Verif.Curve.Mont
import Verif.Curve.Arith
import Verif.Curve.XHom
import Verif.Curve.Isog
import Verif.Curve.Algo
import Verif.Curve.Strategy
import Verif.Curve.Tables
import Verif.Curve.BaseChange
import Verif.Curve.Kernels
import Verif.Curve.Cyc
import Verif.Curve.Sem
import Verif.Curve.Models
import Verif.Curve.IsogSpec
import Verif.Curve.RandSpec
import Verif.Curve.IsogSpecB
import Verif.Curve.Frob
import Verif.Curve.Lift
import Verif.Curve.CheckSpec
import Verif.Curve.Manin
import Verif.Curve.SuperCheck
import Verif.Curve.ChainSpec
import Verif.Curve.Torsion
import Verif.Curve.Can
import Verif.Curve.Can2
import Verif.Curve.Can3
import Verif.Util.Scalar
import Verif.Field.Prime
import Verif.Field.Fp2
import Verif.Field.Chain
import Verif.Field.Level
import Verif.Props.CurveProps
import Verif.Props.ChainProps
import Verif.Curve.Unique
import Verif.Curve.Square
import Verif.Curve.Walk
import Verif.Curve.WalkChain
import Verif.Curve.Cell
import Verif.Protocol.Model
import Verif.Protocol.Grid
import Verif.Protocol.Complete
import Verif.Protocol.Runs
import Verif.Curve.Det
import Verif.Protocol.Verdict
import Verif.Props.ProtocolProps
import Verif.Props.ProofProps
import Verif.Props.HonestProps
import Verif.Props.FreshProps
import Verif.Cli.Model
import Verif.Props.CliProps
import Verif.Keccak.Model
import Verif.Keccak.Spec
import Verif.Keccak.Lemmas
import Verif.Props.KeccakProps
import Verif.Kem.Model
import Verif.Props.KemProps
import Verif.Sage.Model
import Verif.Props.SageProps
import Verif.Word.Model
import Verif.Word.Basic
import Verif.Word.Multi
import Verif.Word.Redc
import Verif.Word.Fp
import Verif.Word.Fp2
import Verif.Word.Encode
import Verif.Props.WordProps
import Verif.WCurve.Model
import Verif.WCurve.Refine
import Verif.WCurve.RefineAlgo
import Verif.WCurve.RefineMonad
import Verif.WCurve.RefineChain
import Verif.WProtocol.Model
import Verif.WProtocol.Refine
import Verif.Props.WProtocolProps
import Verif.Protocol.Local
import Verif.Props.ThreadedProps
import Verif.Curve.Can4
import Verif.Props.TotalProps
import Verif.X64.Model
import Verif.X64.Code434
import Verif.X64.Code503
import Verif.X64.Code610
import Verif.X64.Code751
import Verif.X64.Sym
import Verif.X64.Sound
import Verif.X64.PolySound
import Verif.X64.StepSound
import Verif.X64.Check
import Verif.X64.Call
import Verif.X64.Claims
import Verif.X64.Routine
import Verif.X64.RoutineWide
import Verif.X64.Spec434
import Verif.X64.Spec503
import Verif.X64.Spec610
import Verif.X64.Spec751
import Verif.X64.Funcs
import Verif.X64.Backend
import Verif.X64.BackendMul
import Verif.Props.X64Props
import Verif.X64.Build
import Verif.Props.BuildProps
import Verif.Sage.Verifier
import Verif.Sage.Agree
import Verif.Sage.Library
import Verif.Sage.Sound
import Verif.Sage.Read
import Verif.Props.SageVerifyProps
import Verif.Props.ForgeProps
import Verif.Sidh.Model
import Verif.Sidh.Ladder
import Verif.Sidh.Walk
import Verif.Sidh.Basis
import Verif.Sidh.Agree
import Verif.Sidh.Gens
import Verif.Sidh.Valid
import Verif.Sidh.Order
import Verif.Props.SidhProps
import Verif.Props.KnowledgeProps
import Verif.Sidh.WModel
import Verif.Sidh.WRefine
import Verif.Props.WSidhProps
import Verif.Stat.Model
import Verif.Props.StatProps
import Verif.Arm.Model
import Verif.Arm.Sym
import Verif.Arm.Sound
import Verif.Arm.StepSound
import Verif.Arm.Check
import Verif.Arm.Call
import Verif.Arm.Code434
import Verif.Arm.Code503
import Verif.Arm.Code610
import Verif.Arm.Code751
import Verif.Arm.Routine
import Verif.Arm.MulExact
import Verif.Arm.Spec434
import Verif.Arm.Spec503
import Verif.Arm.Spec610
import Verif.Arm.Spec751
import Verif.Arm.Funcs
import Verif.Arm.Backend
import Verif.Arm.Regs
import Verif.Props.ArmProps
import Verif.X64.Trace
import Verif.Arm.Trace
import Verif.Props.TraceProps
import Verif.Word32.Model
import Verif.Word32.Basic
import Verif.Word32.Multi
import Verif.Word32.Redc
import Verif.Word32.Split
import Verif.Word32.Bytes
import Verif.Word32.Build
import Verif.Word32.Wide
import Verif.Word32.Ladder3
import Verif.Word32.Out610
import Verif.Word32.Out751
import Verif.Props.Word32Props
import Verif.CMem.Model
import Verif.CMem.Basic
import Verif.CMem.Mul
import Verif.CMem.Fpx
import Verif.CMem.Ops
import Verif.CMem.Curve
import Verif.CMem.Sim
import Verif.CMem.Loops
import Verif.CMem.Ladder
import Verif.CMem.Poik
import Verif.CMem.Sqrt
import Verif.CMem.Bytes
import Verif.CMem.Models
import Verif.CMem.Strat
import Verif.CMem.IsogA
import Verif.CMem.Random
import Verif.CMem.IsogB
import Verif.CMem.Check
import Verif.CMem.Decode
import Verif.CMem.Chain
import Verif.CMem.Response
import Verif.CMem.Verify
import Verif.CMem.Walks
import Verif.CMem.Pack
import Verif.CMem.Generate
import Verif.CMem.Grid
import Verif.CMem.Instance
import Verif.CMem.Prove
import Verif.Props.MemProps
import Verif.Props.MemModelProps
import Verif.Props.MemIsogProps
import Verif.Props.MemChainProps
import Verif.Props.MemVerifyProps
import Verif.Props.MemProverProps
import Verif.Props.MemProveProps
import Verif.CMem.Test
import Verif.Props.TestProps
import Verif.Props.EdgeProps
import Verif.Props.FlipProps
import Verif.CMem.Cli
import Verif.Props.MemCliProps
import Verif.CMem.Alloc
import Verif.Props.AllocProps
import Verif.Props.SageReadProps
