import Verif.Props.Zq
import Verif.Props.Util
import Verif.Props.Ntt
import Verif.Props.Rns
import Verif.Props.Scaler
import Verif.Props.RqCtx
import Verif.Props.RqRing
import Verif.Props.RqMore
import Verif.Props.BfvParams
import Verif.Props.BfvPlain
import Verif.Props.BfvCipher
import Verif.Props.BfvMul
import Verif.Props.BfvKeys
import Verif.Props.BfvEval
import Verif.Props.BfvMultiplicator
import Verif.Props.BfvRgsw
import Verif.Props.BfvSer
import Verif.Props.BfvDot
import Verif.Props.Mbfv
import Verif.Props.Circuit
import Verif.Props.Defaults
import Verif.Props.Wire
import Verif.Props.Voting
import Verif.Props.BfvNew
import Verif.Props.Pir
import Verif.Props.SealPir
import Verif.Props.Examples
import Verif.Props.ExamplesRgsw
import Verif.Props.Mpc
import Verif.Props.Robust
import Verif.Props.Interchange
import Verif.Props.Laws
import Verif.Props.Masking
import Verif.Props.Shares
import Verif.Props.Sampling
import Verif.Props.WireFormat
import Verif.Props.WireText
import Verif.Props.Portable
import Verif.Props.Tfhe
import Verif.Props.Zeroize
import Verif.Props.TimingArith
import Verif.Props.TimingBfv
import Verif.Props.TimingKeys
import Verif.Props.Sizes
import Verif.Props.Typical
import Verif.Props.InPlace
import Verif.Props.Identify
import Verif.Props.Release
import Verif.Props.Memory
import Verif.Props.Unreduced
import Verif.Props.Agree
import Verif.Props.Permission
import Verif.Props.OtherDegree
import Verif.Props.OtherModuli
import Verif.Props.Reasons
import Verif.Props.UnreducedRelease
import Verif.Props.Capacity
import Verif.Props.WorstCase
import Verif.Props.Answers
import Verif.Props.AnswersMore
import Verif.Props.Packing
import Verif.Props.TypicalSets
import Verif.Spec.HashOrder
import Verif.Props.HashOrder
import Verif.Model.Float
import Verif.Spec.Float
import Verif.Lemmas.Float
import Verif.Props.Float
import Verif.Spec.Moves
import Verif.Lemmas.Moves
import Verif.Props.Moves
import Verif.Props.PermissionParties
import Verif.Witness.Scene
import Verif.Witness.Scheme
import Verif.Witness.Bytes
import Verif.Witness.Low
import Verif.Witness.Rest
import Verif.Spec.Secrecy
import Verif.Lemmas.Secrecy
import Verif.Props.Secrecy
import Verif.Spec.Joint
import Verif.Lemmas.Joint
import Verif.Props.Joint
import Verif.Spec.Chosen
import Verif.Props.Chosen
import Verif.Props.Reuse
import Verif.Spec.Switch
import Verif.Props.Switch
import Verif.Spec.Decrypting
import Verif.Props.Decrypting
import Verif.Witness.More
import Verif.Witness.Edge
import Verif.Spec.Open
import Verif.Props.Open
