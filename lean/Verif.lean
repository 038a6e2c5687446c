import Verif.Model.Basic
import Verif.Model.Circuit
import Verif.Model.Checked
import Verif.Model.Wrapping
import Verif.Model.Evaluator
import Verif.Model.Equality
import Verif.Model.Utils
import Verif.Model.Bristol
import Verif.Model.ByteReader
import Verif.Model.SinkWriter
import Verif.Model.Logic
import Verif.Model.Arith
import Verif.Model.Fp
import Verif.Model.Bundled
import Verif.Model.Packed
import Verif.Model.Mult64
import Verif.Model.Udiv64
import Verif.Model.Div64
import Verif.Model.Aes128
import Verif.Props.Utils
import Verif.Props.Circuit
import Verif.Props.Overflow
import Verif.Props.Evaluator
import Verif.Props.EvalMore
import Verif.Props.Equality
import Verif.Props.Clone
import Verif.Props.Int
import Verif.Props.Logic
import Verif.Props.Program
import Verif.Props.Fp
import Verif.Props.Bristol
import Verif.Props.Bundled
import Verif.Props.BundledLarge
import Verif.Props.BundledAes
import Verif.Props.Writer
import Verif.Props.Reuse
import Verif.Props.Continue
import Verif.Props.WriterReuse
import Verif.Props.Stable
import Verif.Props.Depth
import Verif.Props.Bytes
import Verif.Props.Output
import Verif.Props.Release
import Verif.Props.Failure
import Verif.Props.Verdict
import Verif.Props.WriteFailure
import Verif.Props.Cost
import Verif.Props.Time
import Verif.Props.Tests
import Verif.Props.Mixed
import Verif.Props.RoundTrip
import Verif.Props.TestsBundled
import Verif.Props.TestsFixed
import Verif.Props.Fashion
import Verif.Props.Refused
import Verif.Props.FieldProgram
import Verif.Props.Functions
import Verif.Props.Text
import Verif.Props.Memory
import Verif.Props.ReadBack
import Verif.Props.Guard
import Verif.Props.Repair
