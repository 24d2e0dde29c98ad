import Verif.Model.Base
import Verif.Model.BigNum
import Verif.Model.Exp
import Verif.Model.Paillier
import Verif.Model.CamenischShoup
import Verif.Model.Context
import Verif.Model.Ec
import Verif.Model.ElGamal
import Verif.Model.EcCipher
import Verif.Model.Shanks
import Verif.Model.Weierstrass
import Verif.Model.Protocol
import Verif.Model.Rpc
import Verif.Model.DataUtil
import Verif.Model.CsvBuffer
import Verif.Lemmas.BigNum
import Verif.Lemmas.Exp
import Verif.Lemmas.DJ
import Verif.Lemmas.Paillier
import Verif.Lemmas.PaillierKeys
import Verif.Lemmas.CamenischShoup
import Verif.Lemmas.Ec
import Verif.Lemmas.Weierstrass
import Verif.Lemmas.Protocol
import Verif.Props.BigNum
import Verif.Props.Exp
import Verif.Props.Paillier
import Verif.Props.CamenischShoup
import Verif.Props.Context
import Verif.Props.Ec
import Verif.Props.Shanks
import Verif.Props.Weierstrass
import Verif.Props.Protocol
import Verif.Props.ProtocolState
import Verif.Props.ProtocolClient
import Verif.Props.ProtocolHostile
import Verif.Props.Rpc
import Verif.Props.DataUtil
import Verif.Model.RecordIO
import Verif.Lemmas.RecordIO
import Verif.Lemmas.Merge
import Verif.Lemmas.Shard
import Verif.Props.RecordIO
import Verif.Props.Shard
import Verif.Model.ProcessFile
import Verif.Props.ProcessFile
import Verif.Model.Pedersen
import Verif.Lemmas.Pedersen
import Verif.Props.Pedersen
import Verif.Model.Wire
import Verif.Lemmas.Wire
import Verif.Model.DyVrf
import Verif.Lemmas.Sigma
import Verif.Lemmas.DyVrf
import Verif.Props.DyVrf
import Verif.Props.Transcript
import Verif.Model.BbSig
import Verif.Lemmas.CsLin
import Verif.Lemmas.BbCommit
import Verif.Lemmas.BbSig
import Verif.Lemmas.BbResponse
import Verif.Props.BbSig
import Verif.Props.BbTranscript
import Verif.Lemmas.BbSound
import Verif.Lemmas.BbReqSound
import Verif.Props.BbSound
import Verif.Lemmas.Sat
import Verif.Lemmas.BbSafety
import Verif.Props.BbSafety
import Verif.Lemmas.WireParse
import Verif.Props.KeyUtil
import Verif.Model.KeyGen
import Verif.Model.DummyData
import Verif.Props.KeyGen
import Verif.Props.BigNumArith
import Verif.Props.KeyExport
import Verif.Props.DummyData
import Verif.Model.ProtoWire
import Verif.Lemmas.ProtoWire
import Verif.Props.ProtoWire
import Verif.Lemmas.Stat
import Verif.Props.PaillierUniform
import Verif.Props.Hiding
import Verif.Props.ZeroKnowledge
import Verif.Props.VrfZk
import Verif.Props.Padding
import Verif.Model.PosixFile
import Verif.Props.PosixFile
import Verif.Props.Refusals
import Verif.Model.Concurrent
import Verif.Lemmas.Concurrent
import Verif.Props.Concurrent
import Verif.Model.Names
import Verif.Props.Names
import Verif.Props.BbZk
import Verif.Props.BbRespZk
import Verif.Props.BbBlind
import Verif.Lemmas.Jacobi
import Verif.Props.SumLeak
import Verif.Lemmas.Prob
import Verif.Props.Ddh
import Verif.Props.Dcr
import Verif.Props.ClientView
import Verif.Props.RecordAny
import Verif.Model.JavaCipher
import Verif.Model.PyCipher
import Verif.Lemmas.Interop
import Verif.Props.Interop
import Verif.Lemmas.Primes
import Verif.Lemmas.PointOrder
import Verif.Lemmas.NistCerts
import Verif.Lemmas.Nist
import Verif.Model.EcCreate
import Verif.Props.Nist
import Verif.Lemmas.InteropCipher
import Verif.Props.InteropCipher
import Verif.Props.ElGamalCpa
import Verif.Model.Sswu
import Verif.Props.Sswu
import Verif.Model.PyPrng
import Verif.Props.PyPrng
import Verif.Model.PyBigNum
import Verif.Props.PyBigNum
import Verif.Model.PyTemp
import Verif.Props.PyTemp
import Verif.Model.PyPoint
import Verif.Props.PyPoint
import Verif.Model.PyPrime
import Verif.Props.PyPrime
import Verif.Model.OpenSslInit
import Verif.Props.OpenSslInit
import Verif.Props.CsCpa
import Verif.Props.DyPrf
import Verif.Props.RomSound
import Verif.Lemmas.Fork
import Verif.Lemmas.Fork2
import Verif.Props.RomKnow
import Verif.Props.PedRom
import Verif.Lemmas.Chain
import Verif.Lemmas.Blocks
import Verif.Props.Loops
import Verif.Lemmas.Close
import Verif.Lemmas.BbView
import Verif.Props.BbView
import Verif.Props.BbKey
import Verif.Props.BbForge
import Verif.Lemmas.BoxProb
import Verif.Lemmas.SafeFactor
import Verif.Props.PedBind
import Verif.Props.VrfUnique
import Verif.Lemmas.Resample
import Verif.Props.VrfPrf
import Verif.Props.BbAnswer
import Verif.Props.BbAnswerRom
import Verif.Props.BbSession
import Verif.Props.CsvBuffer
import Verif.Props.PyUniform
import Verif.Props.OracleUniform
import Verif.Props.HashUniform
import Verif.Props.RandomSha
import Verif.Props.RandomTable
import Verif.Model.BnObject
import Verif.Props.BnObject
import Verif.Model.MergeDefault
import Verif.Props.MergeDefault
import Verif.Model.MontObject
import Verif.Props.MontObject
import Verif.Model.PointObject
import Verif.Props.PointObject
