import Verif.Lemmas.Basic
import Verif.Lemmas.Bincode
import Verif.Lemmas.Dh
import Verif.Lemmas.DkgPedersen
import Verif.Lemmas.DkgPedersenAgree
import Verif.Lemmas.DkgPedersenHonest
import Verif.Lemmas.DkgPedersenInit
import Verif.Lemmas.DkgPedersenKey
import Verif.Lemmas.DkgPedersenOld
import Verif.Lemmas.DkgPedersenRun
import Verif.Lemmas.DkgRabin
import Verif.Lemmas.DkgRabinAgree
import Verif.Lemmas.DkgRabinDealer
import Verif.Lemmas.DkgRabinInv
import Verif.Lemmas.DkgRabinKey
import Verif.Lemmas.DkgRabinRobust
import Verif.Lemmas.DkgRabinRun
import Verif.Lemmas.DkgReshare
import Verif.Lemmas.DkgReshareRun
import Verif.Lemmas.DkgRobust
import Verif.Lemmas.Dss
import Verif.Lemmas.Ed.Curve
import Verif.Lemmas.Ed.Encode
import Verif.Lemmas.Ed.Fe
import Verif.Lemmas.Ed.FeBytes
import Verif.Lemmas.Ed.Ge
import Verif.Lemmas.Ed.Group
import Verif.Lemmas.Ed.Limb
import Verif.Lemmas.Ed.Mult
import Verif.Lemmas.Ed.Num
import Verif.Lemmas.Ed.Order
import Verif.Lemmas.Ed.Point
import Verif.Lemmas.Ed.Prime
import Verif.Lemmas.Ed.Scalar
import Verif.Lemmas.Ed.ScalarOps
import Verif.Lemmas.Ed.Sig
import Verif.Lemmas.Ed.Suite
import Verif.Lemmas.Ed.TopDigit
import Verif.Lemmas.Ed.Vartime
import Verif.Lemmas.Index
import Verif.Lemmas.Int
import Verif.Lemmas.Lin
import Verif.Lemmas.Orders
import Verif.Lemmas.Poly
import Verif.Lemmas.Schnorr
import Verif.Lemmas.Shamir
import Verif.Lemmas.State
import Verif.Lemmas.VssPedersen
import Verif.Lemmas.VssPedersenHonest
import Verif.Lemmas.VssRabin
import Verif.Lemmas.VssRabinHonest
import Verif.Model.Basic
import Verif.Model.Bincode
import Verif.Model.Dh
import Verif.Model.Display
import Verif.Model.DkgPedersen
import Verif.Model.DkgRabin
import Verif.Model.Dss
import Verif.Model.Ed.Base
import Verif.Model.Ed.Bincode
import Verif.Model.Ed.Checked
import Verif.Model.Ed.Eddsa
import Verif.Model.Ed.ElGamal
import Verif.Model.Ed.Fe
import Verif.Model.Ed.Ge
import Verif.Model.Ed.KeyPair
import Verif.Model.Ed.Limb
import Verif.Model.Ed.Marshal
import Verif.Model.Ed.Scalar
import Verif.Model.Ed.ScalarTypes
import Verif.Model.Ed.Shares
import Verif.Model.Ed.Sig
import Verif.Model.Ed.Vartime
import Verif.Model.Eddsa
import Verif.Model.Index
import Verif.Model.Int
import Verif.Model.IntSerde
import Verif.Model.Poly
import Verif.Model.Random
import Verif.Model.Schnorr
import Verif.Model.ShareHash
import Verif.Model.State
import Verif.Model.Suite
import Verif.Model.Text
import Verif.Model.VssPedersen
import Verif.Model.VssRabin
import Verif.Props.Agreement
import Verif.Props.AgreementPedersen
import Verif.Props.Bincode
import Verif.Props.BincodeSigned
import Verif.Props.Deals
import Verif.Props.Dh
import Verif.Props.Display
import Verif.Props.DkgEpochs
import Verif.Props.DkgPedersen
import Verif.Props.DkgPedersenBias
import Verif.Props.DkgPedersenConfig
import Verif.Props.DkgPedersenEarly
import Verif.Props.DkgPedersenFair
import Verif.Props.DkgPedersenHonest
import Verif.Props.DkgPedersenPanic
import Verif.Props.DkgPedersenQual
import Verif.Props.DkgPedersenRenew
import Verif.Props.DkgPedersenReshare
import Verif.Props.DkgPedersenSilent
import Verif.Props.DkgRabin
import Verif.Props.DkgRabinBind
import Verif.Props.DkgRabinEarly
import Verif.Props.DkgRabinEvidence
import Verif.Props.DkgRabinHonest
import Verif.Props.DkgRabinMore
import Verif.Props.DkgRabinPanic
import Verif.Props.DkgRabinRobust
import Verif.Props.DkgRabinSecrecy
import Verif.Props.DkgRabinSilent
import Verif.Props.DkgRabinViol
import Verif.Props.DkgRabinWithheld
import Verif.Props.DkgReshareHonest
import Verif.Props.DkgReshareSilent
import Verif.Props.DkgRobust
import Verif.Props.Dss
import Verif.Props.DssEpochs
import Verif.Props.DssLive
import Verif.Props.DssReuse
import Verif.Props.DssSilent
import Verif.Props.DssSim
import Verif.Props.DssUnreduced
import Verif.Props.EciesExact
import Verif.Props.EdBincode
import Verif.Props.EdChecked
import Verif.Props.EdDh
import Verif.Props.EdDss
import Verif.Props.EdElGamal
import Verif.Props.EdFair
import Verif.Props.EdField
import Verif.Props.EdKeyChange
import Verif.Props.EdKeyPair
import Verif.Props.EdKeys
import Verif.Props.EdKinds
import Verif.Props.EdMarshal
import Verif.Props.EdNeighbours
import Verif.Props.EdPoint
import Verif.Props.EdReshare
import Verif.Props.EdRuns
import Verif.Props.EdScalar
import Verif.Props.EdScalarTypes
import Verif.Props.EdSecrecy
import Verif.Props.EdSerde
import Verif.Props.EdSig
import Verif.Props.EdSigners
import Verif.Props.EdSuite
import Verif.Props.EdUnreduced
import Verif.Props.EdVartime
import Verif.Props.EddsaKey
import Verif.Props.FeldmanSim
import Verif.Props.Index
import Verif.Props.Int
import Verif.Props.IntMore
import Verif.Props.IntSerde
import Verif.Props.Justify
import Verif.Props.KeyStable
import Verif.Props.Kinds
import Verif.Props.Proactive
import Verif.Props.RabinKeyChange
import Verif.Props.Random
import Verif.Props.Replay
import Verif.Props.ReplayRabin
import Verif.Props.ReplayReshare
import Verif.Props.ReshareSecrecy
import Verif.Props.ResponseOrder
import Verif.Props.Secrecy
import Verif.Props.Setup
import Verif.Props.Shamir
import Verif.Props.ShareHash
import Verif.Props.SignAfter
import Verif.Props.Signatures
import Verif.Props.State
import Verif.Props.Text
import Verif.Props.VssPedersen
import Verif.Props.VssPedersenDeal
import Verif.Props.VssPedersenMore
import Verif.Props.VssRabin
import Verif.Props.VssRabinMore
import Verif.Spec.Agreement
import Verif.Spec.Apart
import Verif.Spec.Dealer
import Verif.Spec.DkgHonest
import Verif.Spec.DkgPedersen
import Verif.Spec.DkgRabin
import Verif.Spec.DkgRabinHonest
import Verif.Spec.DkgReshare
import Verif.Spec.DkgReshareHonest
import Verif.Spec.Dss
import Verif.Spec.Ed.Codec
import Verif.Spec.Ed.Rfc8032
import Verif.Spec.Ed.Suite
import Verif.Spec.Ok
import Verif.Spec.Replay
import Verif.Spec.Shamir
import Verif.Spec.Signed
import Verif.Spec.Toy
import Verif.Spec.ToyDkg
import Verif.Spec.ToyDkgR
import Verif.Spec.ToyVss
import Verif.Spec.ToyVssR
import Verif.Spec.VssPedersen
import Verif.Spec.VssRabin
