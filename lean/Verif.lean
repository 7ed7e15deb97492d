import Verif.Prelude.Exec
import Verif.Prelude.Loops
import Verif.Proof.Perm
import Verif.Props.Interleaver
import Verif.Props.BitPacker
import Verif.Props.CRC
import Verif.Props.Polar
import Verif.Props.RSC
import Verif.Props.Galois
import Verif.Props.BCH
import Verif.Props.Distance
import Verif.Props.Genius
import Verif.Props.Repetition
import Verif.Props.Puncturer
import Verif.Props.Adaptor
import Verif.Props.Sparse
import Verif.Props.Full
import Verif.Props.LDPCEnc
import Verif.Props.Module
import Verif.Props.Monitor
import Verif.Props.Socket
import Verif.Props.Control
import Verif.Props.Quantizer
import Verif.Props.Sorter
import Verif.Props.Reorderer
import Verif.Props.Prng
import Verif.Props.BCHDec
import Verif.Props.RSDec
import Verif.Props.Sequence
import Verif.Props.PolarSC
import Verif.Props.ML
import Verif.Props.Chase
import Verif.Props.Peeling
import Verif.Props.Constellation
import Verif.Props.Modem
import Verif.Props.Bin
import Verif.Props.PolarSCL
import Verif.Props.LDPCRec
import Verif.Props.BCJR
import Verif.Props.Turbo
import Verif.Props.TurboDec
import Verif.Props.TurboDefects
import Verif.Props.PolarFast
import Verif.Props.PolarFastDefects
import Verif.Props.RSCDB
import Verif.Props.TurboProduct
import Verif.Props.PolarMKSys
import Verif.Props.BitFile
import Verif.Props.Extractor
import Verif.Props.RA
import Verif.Props.User
import Verif.Props.LDPCBF
import Verif.Props.Gallager
import Verif.Props.AList
import Verif.Props.Frozen
import Verif.Props.Dumper
import Verif.Props.CRCInter
import Verif.Props.Channel
import Verif.Props.HistDump
import Verif.Props.Simple
import Verif.Props.Events
import Verif.Props.Gaussian
import Verif.Props.Numeric
import Verif.Props.Distrib
import Verif.Props.Mutual
