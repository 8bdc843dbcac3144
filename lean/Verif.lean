import Verif.Model.Transparent
import Verif.Model.Groth16
import Verif.Model.Sipp
import Verif.Lemmas.Basic
import Verif.Lemmas.Dot
import Verif.Lemmas.InnerProducts
import Verif.Lemmas.Gipa
import Verif.Lemmas.FinalKeys
import Verif.Lemmas.GipaLoop
import Verif.Props.InnerProducts
import Verif.Props.Gipa
import Verif.Props.GipaInstances
import Verif.Props.Tipa
import Verif.Props.Ssm
import Verif.Props.PolyCommit
import Verif.Props.Univariate
import Verif.Props.Transparent
import Verif.Props.Groth16
import Verif.Props.Groth16Verify
import Verif.Props.Sipp
import Verif.Props.Extract
import Verif.Props.Challenge
import Verif.Props.KeySoundness
import Verif.Props.SsmExtract
import Verif.Props.SippOracle
import Verif.Props.ProveLengths
import Verif.Props.Groth16Setup
import Verif.Props.Groth16Extract
import Verif.Props.DegreeLimit
import Verif.Props.PolyReject
import Verif.Props.PolyBinding
import Verif.Props.DegreeBound
import Verif.Props.PolyAlgebraic
import Verif.Lemmas.Chain
import Verif.Props.GipaStatic
import Verif.Model.Serialize
import Verif.Props.Serialize
import Verif.Props.TipaLength
import Verif.Props.SsmStatic
import Verif.Model.Batch
import Verif.Props.Batch
import Verif.Props.TipaStatic
import Verif.Props.TipaSsmStatic
import Verif.Model.Bench
import Verif.Props.Bench
import Verif.Props.SippComplete
import Verif.Props.OracleComplete
import Verif.Props.CommitValue
import Verif.Lemmas.Chain2
import Verif.Props.PolyStatic
import Verif.Props.SetupDraws
import Verif.Model.Tests
import Verif.Props.Tests
import Verif.Props.TestBenches
import Verif.Props.PcStatic
import Verif.Props.AggStatic
import Verif.Lemmas.Rewind
import Verif.Props.GipaRewind
import Verif.Props.SsmRewind
import Verif.Lemmas.Rewind2
import Verif.Props.PolyRewind
import Verif.Props.Trapdoor
import Verif.Model.Cost
import Verif.Lemmas.Cost
import Verif.Lemmas.CostBounds
import Verif.Props.Cost
import Verif.Lemmas.Tail
import Verif.Props.TipaRewind
import Verif.Props.TipaSsmRewind
import Verif.Props.PcRewind
import Verif.Props.AggRewind
import Verif.Props.KeyBinding
import Verif.Props.SippUnique
import Verif.Props.ProverCost
import Verif.Props.Outcome
import Verif.Props.Linear
import Verif.Props.Malleable
import Verif.Props.Schedule
import Verif.Props.GipaUnique
import Verif.Props.TipaUnique
import Verif.Props.ProverOutcome
import Verif.Props.SsmFree
import Verif.Props.SsmUnique
import Verif.Props.TipaSsmUnique
import Verif.Props.OpenMalleable
import Verif.Props.AggUnique
import Verif.Props.TrapdoorAgg
import Verif.Props.Domain
import Verif.Lemmas.Shape
import Verif.Props.Entries
import Verif.Props.Level
import Verif.Props.Grind
import Verif.Props.Choice
import Verif.Props.Programs
import Verif.Model.Release
import Verif.Props.Release
import Verif.Props.Success
import Verif.Props.Degenerate
import Verif.Props.LevelRest
import Verif.Props.Reveal
import Verif.Model.Display
import Verif.Props.Display
import Verif.Model.UnivariateCost
import Verif.Props.UnivariateCost
import Verif.Props.SrsReuse
import Verif.Model.Platform
import Verif.Props.Platform
import Verif.Model.Wire
import Verif.Props.Wire
import Verif.Props.Padding
import Verif.Model.Clone
import Verif.Props.Clone
import Verif.Model.Table
import Verif.Props.Table
import Verif.Props.ShortDigest
import Verif.Props.ZeroRows
import Verif.Props.Scaling
import Verif.Props.SippGipa
