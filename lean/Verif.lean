import Verif.Props.PackInteger
import Verif.Props.Compress
import Verif.Props.FstInt
import Verif.Props.BitSlicer
import Verif.Props.Rle
import Verif.Props.Base40
import Verif.Props.Crc
import Verif.Props.Arc4
import Verif.Props.SwapBuffer
import Verif.Props.EzCherche
import Verif.Props.Ieeepak
import Verif.Props.Handles
import Verif.Props.FstKeys
import Verif.Props.Xdf
import Verif.Props.XdfSearch
import Verif.Props.FstEcr
import Verif.Props.Date
import Verif.Props.DateInc
import Verif.Props.WhiteBoard
import Verif.Props.WaFile
import Verif.Props.FloatPacker
import Verif.Props.Missing
import Verif.Excdes
import Verif.Props.Excdes
import Verif.Jar
import Verif.Props.Jar
import Verif.Sorts
import Verif.Props.Sorts
import Verif.Grid
import Verif.Props.Grid
import Verif.Convip
import Verif.Props.Convip
import Verif.Props.ConvipOld
import Verif.Burp
import Verif.BurpLemmas
import Verif.BurpValues
import Verif.BurpRep
import Verif.BurpHist
import Verif.BurpLoc
import Verif.Props.Burp
import Verif.Armn32
import Verif.Armn32Seg
import Verif.Armn32Rle
import Verif.Armn32Par
import Verif.Armn32Zip
import Verif.Props.Armn32
import Verif.CompactFloat
import Verif.CompactFloatLemmas
import Verif.Props.CompactFloat
import Verif.ConvertIp
import Verif.Props.ConvertIp
import Verif.Md5
import Verif.Props.Md5
import Verif.Props.Md5Table
import Verif.Bufr
import Verif.Props.Bufr
import Verif.Interp1D
import Verif.Props.Interp1D
import Verif.Props.Interp1DCubic
import Verif.Gmm
import Verif.Props.Gmm
import Verif.Props.GmmMap
import Verif.Props.GmmShuffle
import Verif.Props.GmmRestart
import Verif.Crc3
import Verif.Props.Crc3
import Verif.Props.Crc3Code
import Verif.EzGrid
import Verif.Props.EzGrid
import Verif.Props.EzGridTable
import Verif.Props.EzGridRelease
import Verif.Props.EzGridMore
import Verif.EzSets
import Verif.Props.EzSets
import Verif.Props.EzSetsFind
import Verif.EzInterp
import Verif.Props.EzInterp
import Verif.Props.EzWrap
import Verif.Props.EzNewton
import Verif.Gossip
import Verif.Props.GossipStream
import Verif.Props.GossipRecord
import Verif.Props.GossipFault
import Verif.Mgi
import Verif.Props.Mgi
import Verif.FstData
import Verif.FstDataLemmas
import Verif.FstDataRound
import Verif.Props.FstData
import Verif.Props.FstReal
import Verif.Props.FstEntry
import Verif.Props.FstCopy
import Verif.FstTurbo
import Verif.Props.FstTurbo
import Verif.Fnom
import Verif.FnomLemmas
import Verif.FnomInv
import Verif.FnomAttr
import Verif.FnomSlots
import Verif.Props.Fnom
import Verif.Props.FnomAttr
import Verif.Props.FnomSlots
import Verif.CmcArc
import Verif.Props.CmcArc
import Verif.Sq
import Verif.Props.Sq
import Verif.Da
import Verif.Props.Da
import Verif.FstEdit
import Verif.Props.FstEdit
import Verif.Props.FstMsq
import Verif.FstIp
import Verif.Props.FstIp
import Verif.BurpHdr
import Verif.Props.BurpHdr
import Verif.XdfLen
import Verif.Wkoffit
import Verif.Props.Wkoffit
import Verif.XdfSeq
import Verif.XdfSeqLemmas
import Verif.XdfSeqWrite
import Verif.XdfSeqSkip
import Verif.Props.XdfSeq
import Verif.EzProj
import Verif.EzProjLemmas
import Verif.EzWind
import Verif.Props.EzProj
import Verif.EzLocate
import Verif.EzLocateLemmas
import Verif.Props.EzLocate
import Verif.EzZones
import Verif.Props.EzZones
import Verif.Props.EzPoles
import Verif.EzOpt
import Verif.Props.EzOpt
import Verif.EzYinYang
import Verif.Props.EzYinYang
import Verif.Props.EzKernels
import Verif.CCard
import Verif.Props.CCard
import Verif.Ibm32
import Verif.Props.Ibm32
import Verif.FCard
import Verif.Props.FCard
import Verif.EzMask
import Verif.Props.EzMask
import Verif.EzCloud
import Verif.Props.EzCloud
import Verif.EzAvg
import Verif.Props.EzAvg
import Verif.Readlx
import Verif.Props.Readlx
import Verif.Tridiag
import Verif.Props.Tridiag
import Verif.Spline
import Verif.Props.Spline
import Verif.UserLock
import Verif.Props.UserLock
import Verif.NrRand
import Verif.Props.NrRand
import Verif.Stats
import Verif.Props.Stats
import Verif.LinkEdit
import Verif.Props.LinkEdit
import Verif.Field
import Verif.Props.Field
import Verif.GribTable
import Verif.Props.GribTable
import Verif.MtxInv
import Verif.Props.MtxInv
import Verif.Dmms
import Verif.Props.Dmms
import Verif.ApplVar
import Verif.Props.ApplVar
import Verif.Qrbnbdt
import Verif.Props.Qrbnbdt
import Verif.EnvCrack
import Verif.Props.EnvCrack
import Verif.FStr
import Verif.Props.FStr
import Verif.FieldMath
import Verif.Props.FieldMath
import Verif.Idxes
import Verif.Props.Idxes
import Verif.Fread
import Verif.Props.Fread
import Verif.Ftn2c
import Verif.Props.Ftn2c
import Verif.Key84
import Verif.Props.Key84
import Verif.ProgName
import Verif.Props.ProgName
import Verif.Constnt
import Verif.Props.Constnt
import Verif.Spectral
import Verif.Props.Spectral
import Verif.Legendre
import Verif.Props.Legendre
import Verif.CalcDist
import Verif.Props.CalcDist
import Verif.BurpPrml
import Verif.Props.BurpPrml
import Verif.EwFdr
import Verif.Props.EwFdr
import Verif.Xtrap
import Verif.Props.Xtrap
import Verif.FstCvt
import Verif.Props.FstCvt
import Verif.Qrbsct
import Verif.Props.Qrbsct
import Verif.PoleWind
import Verif.Props.PoleWind
import Verif.OrdLeg
import Verif.Props.OrdLeg
import Verif.Gauss
import Verif.Props.Gauss
import Verif.HybRef
import Verif.Props.HybRef
import Verif.DGauss
import Verif.Props.DGauss
import Verif.SurfExtrap
import Verif.Props.SurfExtrap
import Verif.Sll
import Verif.Props.Sll
import Verif.Sglo
import Verif.Props.Sglo
import Verif.Vll
import Verif.Props.Vll
import Verif.GgRows
import Verif.Props.GgRows
