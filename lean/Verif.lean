import Verif.Prelude
import Verif.Spec.Bits
import Verif.Model.BitBuf
import Verif.Proofs.Bits
import Verif.Spec.BitStream
import Verif.Proofs.BitBuf
import Verif.Spec.Requests
import Verif.Props.BitReader
import Verif.Model.BitWriter
import Verif.Proofs.BitWriter
import Verif.Model.Prog
import Verif.Proofs.Prog
import Verif.Model.Escape
import Verif.Props.BitWriter
import Verif.Model.Loop
import Verif.Model.Asi
import Verif.Model.Mhas
import Verif.Proofs.Safe
import Verif.Spec.Scene
import Verif.Proofs.Asi
import Verif.Proofs.Fields
import Verif.Spec.SceneBits
import Verif.Props.Asi
import Verif.Props.Mhas
import Verif.Model.Ops
import Verif.Spec.Clamp
import Verif.Props.Ops
import Verif.Model.Api
import Verif.Props.Api
import Verif.Model.Pcm
import Verif.Spec.Pcm
import Verif.Props.Pcm
import Verif.Model.Preroll
import Verif.Props.Preroll
import Verif.Model.ArithTables
import Verif.Model.Arith
import Verif.Spec.ArithCode
import Verif.Proofs.Arith
import Verif.Props.Arith
import Verif.Props.Spectrum
import Verif.Props.SpectrumUb
import Verif.Model.Oam
import Verif.Props.Oam
import Verif.Model.EnhOam
import Verif.Props.EnhOam
import Verif.Spec.ObjMd
import Verif.Props.OamCode
import Verif.Props.OamIntra
import Verif.Spec.Limiter
import Verif.Model.Limiter
import Verif.Props.Limiter
import Verif.Spec.PrefixCode
import Verif.Model.HuffTables
import Verif.Model.Huff
import Verif.Spec.TimeCode
import Verif.Props.Huff
import Verif.Props.TimeCode
import Verif.Model.Mct
import Verif.Proofs.Post
import Verif.Props.Mct
import Verif.Props.MctAngle
import Verif.Props.MctRot
import Verif.Model.Speaker
import Verif.Model.Interact
import Verif.Model.Displace
import Verif.Proofs.Same
import Verif.Props.Speaker
import Verif.Props.Interact
import Verif.Props.Displace
import Verif.Model.Config
import Verif.Props.Config
import Verif.Props.ConfigLevel
import Verif.Props.ConfigExt
import Verif.Props.ConfigDmx
import Verif.Props.ConfigOam
import Verif.Props.ConfigMap
import Verif.Props.ConfigSafe
import Verif.Props.InteractAllow
import Verif.Props.ExtElem
import Verif.Props.DrcCurve
import Verif.Props.DrcSafe
import Verif.Props.DrcGain
import Verif.Props.DrcParse
import Verif.Props.Spectral
import Verif.Props.OamFixed
import Verif.Props.DrcLoud
import Verif.Props.DrcConfigOk
import Verif.Props.DrcCoeffs
import Verif.Props.ConfigWhole
import Verif.Props.ConfigMore
import Verif.Props.DrcInstr
import Verif.Model.DrcSel
import Verif.Proofs.Sel
import Verif.Spec.DrcSel
import Verif.Props.DrcSelInfo
import Verif.Props.DrcSelLoud
import Verif.Props.DrcSelFinal
import Verif.Props.DrcSel
import Verif.Props.DrcSelBad
import Verif.Props.DrcSelSafe
import Verif.Props.DrcSelMore
import Verif.Props.DrcSelFit
import Verif.Props.DrcSelLive
import Verif.Model.DrcApply
import Verif.Spec.DrcApply
import Verif.Proofs.Does
import Verif.Props.DrcWeights
import Verif.Props.DrcTd
import Verif.Props.DrcFd
import Verif.Props.DrcFilters
import Verif.Props.DrcSetUp
import Verif.Props.DrcMemory
import Verif.Model.Avq
import Verif.Spec.Avq
import Verif.Props.AvqBase
import Verif.Props.AvqBook
import Verif.Props.AvqVoronoi
import Verif.Props.Avq
import Verif.Model.Lpd
import Verif.Spec.Lpd
import Verif.Spec.LpdFrame
import Verif.Proofs.Reads
import Verif.Proofs.Always
import Verif.Props.LpdNumbers
import Verif.Props.LpdFilters
import Verif.Props.LpdFreq
import Verif.Props.LpdLpc
import Verif.Props.LpdFrame
import Verif.Model.Acelp
import Verif.Spec.Acelp
import Verif.Props.AcelpPulses
import Verif.Props.AcelpCode
import Verif.Props.AcelpPitch
import Verif.Props.AcelpGain
import Verif.Model.Scf
import Verif.Spec.Scf
import Verif.Proofs.Scf
import Verif.Props.ScfWord
import Verif.Props.Scf
import Verif.Model.Fd
import Verif.Spec.Fd
import Verif.Props.FdWindow
import Verif.Props.FdStereo
import Verif.Props.FdPair
import Verif.Model.FdMix
import Verif.Spec.FdMix
import Verif.Props.FdMix
import Verif.Model.Fdp
import Verif.Spec.Fdp
import Verif.Props.Fdp
import Verif.Props.FdpFrame
import Verif.Model.InvQuant
import Verif.Spec.InvQuant
import Verif.Props.InvQuant
import Verif.Props.InvQuantFrame
import Verif.Model.Tns
import Verif.Spec.Tns
import Verif.Props.Tns
import Verif.Props.TnsFrame
import Verif.Model.FdStream
import Verif.Spec.FdStream
import Verif.Props.FdStream
import Verif.Props.FdChannel
import Verif.Model.IgfTables
import Verif.Model.Igf
import Verif.Model.IgfFill
import Verif.Spec.Igf
import Verif.Spec.IgfFill
import Verif.Props.IgfTiles
import Verif.Props.IgfLevels
import Verif.Props.IgfData
import Verif.Props.IgfFill
import Verif.Model.HoaTables
import Verif.Model.Hoa
import Verif.Model.HoaSide
import Verif.Spec.Hoa
import Verif.Props.HoaConfig
import Verif.Props.HoaHuff
import Verif.Props.HoaSafe
import Verif.Props.HoaFrame
import Verif.Props.HoaGain
import Verif.Props.HoaVectors
import Verif.Spec.HoaChannels
import Verif.Props.HoaChannels
import Verif.Props.HoaAccess
import Verif.Spec.IgfNoise
import Verif.Props.IgfNoise
import Verif.Model.HoaSyn
import Verif.Spec.HoaSyn
import Verif.Props.HoaSyn
import Verif.Props.HoaFade
import Verif.Model.Ltpf
import Verif.Spec.Ltpf
import Verif.Props.Ltpf
import Verif.Model.Resamp
import Verif.Spec.Resamp
import Verif.Props.Resamp
import Verif.Model.ExtRend
import Verif.Spec.ExtRend
import Verif.Proofs.ExtRend
import Verif.Props.ExtRend
import Verif.Props.ExtRendObj
import Verif.Props.ExtRendCh
import Verif.Props.HoaMany
import Verif.Props.DmxGains
import Verif.Props.DmxPairs
import Verif.Props.DmxMtx
import Verif.Props.DmxEq
import Verif.Props.LtpfChange
import Verif.Props.HoaEnd
import Verif.Props.ExtRendSpk
import Verif.Props.ObjPan
import Verif.Props.ObjRamp
import Verif.Props.ObjDmx
import Verif.Props.ObjLayout
import Verif.Props.ObjSilent
import Verif.Props.ObjSubset
import Verif.Props.HoaNfc
import Verif.Props.Mp4
import Verif.Props.ObjSpread
import Verif.Model.HoaPerm
import Verif.Props.HoaPerm
import Verif.Model.Imdct
import Verif.Props.Tdac
import Verif.Props.Imdct
import Verif.Props.ImdctMixed
import Verif.Model.Fac
import Verif.Props.Fac
import Verif.Model.Bpf
import Verif.Props.Bpf
import Verif.Props.LpdBpf
import Verif.Model.HoaSvd
import Verif.Props.HoaSvd
import Verif.Model.HoaPos
import Verif.Props.HoaPos
import Verif.Model.HoaPan
import Verif.Props.HoaPan
import Verif.Model.HoaPanMem
import Verif.Props.HoaPanMem
import Verif.Model.ObjSortIdx
import Verif.Props.ObjSortIdx
import Verif.Model.ObjHull
import Verif.Props.ObjHull
import Verif.Model.ObjProj
import Verif.Props.ObjProj
