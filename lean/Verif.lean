import Verif.Model.Api
import Verif.Props.Words
import Verif.Props.Field
import Verif.Props.Ntt
import Verif.Props.Poly
import Verif.Props.Utils
import Verif.Props.Rng
import Verif.Props.Hash
import Verif.Props.Sampling
import Verif.Props.Masked
import Verif.Proofs.BitIO
import Verif.Proofs.PubKey
import Verif.Proofs.SecKey
import Verif.Proofs.Total
import Verif.Props.Keys
import Verif.Proofs.SigRel
import Verif.Props.Sig
import Verif.Proofs.SigEncExact
import Verif.Props.SigExact
import Verif.Props.WireExact
import Verif.Props.Norms
import Verif.Props.Scheme
import Verif.Proofs.Progress
import Verif.Proofs.SignExact
import Verif.Proofs.IntResp
import Verif.Proofs.HintSize
import Verif.Props.Progress
import Verif.Props.Sizes
import Verif.Props.Demo
import Verif.Spec.Wire
import Verif.Spec.Shown
import Verif.Proofs.Wire
import Verif.Props.Wire
import Verif.Model.Extra
import Verif.Props.Extra
import Verif.Props.KeyApi
import Verif.Spec.Budget
import Verif.Proofs.Fuel
import Verif.Props.Fuel
import Verif.Spec.Binding
import Verif.Proofs.Binding
import Verif.Props.Binding
import Verif.Props.Domain
import Verif.Spec.Uniform
import Verif.Proofs.Uniform
import Verif.Proofs.UniformChal
import Verif.Proofs.UniformMask
import Verif.Props.Uniform
import Verif.Spec.Hiding
import Verif.Proofs.Hiding
import Verif.Props.Hiding
import Verif.Proofs.Layers
import Verif.Spec.Probing
import Verif.Proofs.Probing
import Verif.Proofs.ProbingResp
import Verif.Proofs.ProbingNoise
import Verif.Props.Probing
import Verif.Props.ProbingResp
import Verif.Props.ProbingNoise
import Verif.Spec.ProbingLife
import Verif.Proofs.ProbingLife
import Verif.Proofs.ProbingLifeCode
import Verif.Spec.ProbingRun
import Verif.Proofs.ProbingRun
import Verif.Proofs.ProbingHistory
import Verif.Props.ProbingLife
import Verif.Model.Leak
import Verif.Model.LeakMasked
import Verif.Model.LeakApi
import Verif.Proofs.LeakErase
import Verif.Proofs.LeakErase2
import Verif.Proofs.LeakErase3
import Verif.Proofs.LeakTrace
import Verif.Proofs.LeakTrace2
import Verif.Proofs.LeakFuel
import Verif.Spec.Attempts
import Verif.Proofs.LeakSign
import Verif.Proofs.LeakSigns
import Verif.Proofs.LeakParse
import Verif.Props.Leak
import Verif.Props.LeakExact
import Verif.Props.Programming
import Verif.Proofs.WordMasks
import Verif.Proofs.WordMasksVec
import Verif.Props.WordMasks
import Verif.Proofs.KeyFile
import Verif.Props.KeyFile
import Verif.Props.KeyFileTrap
import Verif.Props.KeyFileDemo
import Verif.Model.Tests
import Verif.Spec.Tests
import Verif.Props.Tests
import Verif.Props.TestsSer
import Verif.Props.TestsSigning
import Verif.Props.TestsTrap
import Verif.Spec.Extreme
import Verif.Proofs.Extreme
import Verif.Props.Extreme
import Verif.Props.ExtremeRun
import Verif.Spec.Flood
import Verif.Proofs.Flood
import Verif.Props.Flood
import Verif.Spec.Simulate
import Verif.Proofs.Simulate
import Verif.Props.Simulate
import Verif.Proofs.IntDomain
import Verif.Props.DemoLike
import Verif.Props.Reuse
import Verif.Props.Reject
import Verif.Spec.PublicMasks
import Verif.Proofs.PublicMasks
import Verif.Props.PublicMasks
import Verif.Spec.MaskGen
import Verif.Props.MaskGen
import Verif.Spec.OneSeed
import Verif.Props.OneSeed
import Verif.Props.Sharewise
import Verif.Model.Bench
import Verif.Props.Bench
import Verif.Spec.Adaptive
import Verif.Proofs.Adaptive
import Verif.Props.Adaptive
import Verif.Spec.Forking
import Verif.Proofs.Forking
import Verif.Props.Forking
import Verif.Spec.Entropy
import Verif.Proofs.Roots
import Verif.Proofs.Entropy
import Verif.Proofs.EntropyNoise
import Verif.Proofs.EntropyColl
import Verif.Proofs.EntropyGame
import Verif.Props.Entropy
import Verif.Props.MatrixOracle
import Verif.Props.KeyEntropy
import Verif.Props.Unforgeable
import Verif.Props.Anytime
import Verif.Props.Exchange
import Verif.Spec.Strong
import Verif.Proofs.Strong
import Verif.Props.Strong
import Verif.Props.Security
import Verif.Props.Odds
import Verif.Proofs.FewTime
import Verif.Props.FewTime
