import Verif.Props.Base64
import Verif.Props.Bitmap
import Verif.Props.LinearBuf
import Verif.Props.BufIo
import Verif.Props.VectorBuf
import Verif.Props.Hash
import Verif.Props.List
import Verif.Props.DevState
import Verif.Props.Scan
import Verif.Props.BpTree
import Verif.Props.Kvs
import Verif.Props.Ifc
import Verif.Props.Res
import Verif.Props.EvSrc
import Verif.Props.UbrKey
import Verif.Props.UbrPerm
import Verif.Props.UbrDelta
import Verif.Props.UbrSync
import Verif.Props.UbrCodec
import Verif.Props.UbrGen
import Verif.Props.UbrGroup
import Verif.Props.UbrCmd
import Verif.Props.UbrConn
import Verif.Props.WrkChan
import Verif.Props.WrkCtl
import Verif.Props.UtilStr
import Verif.Props.ModReg
import Verif.Props.Fmt
import Verif.Spec.FmtEnv
import Verif.Props.FmtEnv
import Verif.Props.Listing
import Verif.Props.SrvLnk
import Verif.Props.UbrIdent
import Verif.Model.UbrStack
import Verif.Spec.UbrStack
import Verif.Proof.UbrStack
import Verif.Props.UbrStack
import Verif.Proof.KvsFree
import Verif.Model.UbrEvent
import Verif.Spec.UbrEvent
import Verif.Proof.UbrEvent
import Verif.Props.UbrEvent
import Verif.Model.UbrMod
import Verif.Spec.UbrMod
import Verif.Proof.UbrMod
import Verif.Props.UbrMod
import Verif.Model.UbrReply
import Verif.Spec.UbrReply
import Verif.Proof.UbrReply
import Verif.Props.UbrReply
import Verif.Model.Dm
import Verif.Spec.Dm
import Verif.Proof.Dm
import Verif.Props.Dm
import Verif.Spec.DmLvm
import Verif.Props.DmLvm
import Verif.Model.Mpath
import Verif.Spec.Mpath
import Verif.Props.Mpath
import Verif.Model.Blkid
import Verif.Spec.Blkid
import Verif.Props.Blkid
import Verif.Model.SysDeps
import Verif.Spec.SysDeps
import Verif.Props.SysDeps
import Verif.Model.Tools
import Verif.Spec.Tools
import Verif.Proof.Tools
import Verif.Props.Tools
import Verif.Model.Dump
import Verif.Spec.Dump
import Verif.Proof.Dump
import Verif.Proof.Restart
import Verif.Props.Dump
import Verif.Model.Log
import Verif.Spec.Log
import Verif.Proof.Log
import Verif.Props.Log
import Verif.Model.LvmNext
import Verif.Spec.LvmNext
import Verif.Proof.LvmNext
import Verif.Props.LvmNext
import Verif.Model.KvsIter
import Verif.Spec.KvsIter
import Verif.Proof.KvsIter
import Verif.Proof.KvsStats
import Verif.Props.KvsIter
import Verif.Model.WrkFds
import Verif.Spec.WrkFds
import Verif.Proof.WrkFds
import Verif.Props.WrkFds
import Verif.Model.UbrSys
import Verif.Spec.UbrSys
import Verif.Proof.UbrSys
import Verif.Props.UbrSys
import Verif.Model.UbrIdx
import Verif.Spec.UbrIdx
import Verif.Proof.UbrIdx
import Verif.Props.UbrIdx
import Verif.Model.UbrAlias
import Verif.Spec.UbrAlias
import Verif.Proof.UbrAlias
import Verif.Props.UbrAlias
import Verif.Model.UbrStrv
import Verif.Spec.UbrStrv
import Verif.Proof.UbrStrv
import Verif.Props.UbrStrv
import Verif.Model.BpMem
import Verif.Spec.BpMem
import Verif.Proof.BpMem
import Verif.Proof.BpMemIns
import Verif.Proof.BpMemDel
import Verif.Proof.BpMemRun
import Verif.Proof.BpMemStep
import Verif.Proof.BpMemEnd
import Verif.Props.BpMem
import Verif.Model.Start
import Verif.Spec.Start
import Verif.Proof.Start
import Verif.Props.Start
import Verif.Model.HashMem
import Verif.Spec.HashMem
import Verif.Proof.HashMem
import Verif.Props.HashMem
import Verif.Model.UbrBoot
import Verif.Spec.UbrBoot
import Verif.Props.UbrBoot
