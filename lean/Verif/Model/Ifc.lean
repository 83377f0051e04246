import Verif.Model.BaseUtil
/-
Model of /repo/src/iface/ifc.c (the client library) and of the part of /repo/src/resource/ubr.c that takes a scan request
apart (4104-4199).

Simplifications: malloc, socket and mmap succeed; the connection is two independent streams, one carrying what the client
writes (the bytes the kernel accepted) and one carrying what the daemon writes; the machine is little endian with
8-byte `dev_t`; strings have no NUL inside.  Only the values stored in the udev namespace and the device numbers are
modelled of `_device_add_field`, not the copies in `ucmd_ctx->req_env`.
-/
namespace Sid.Ifc
open Sid.LBuf (Buf IoEv Stream)
open Sid.Spec.Buf (Op Ret)

/-- model only, for src/iface/ifc.c:25-37: ASCII text (model only) -/
def txt (s : String) : Str := s.toList.map fun c => UInt8.ofNat c.toNat

/-- src/iface/ifc.c:25-37 `_cmd_names`, src/include/iface/ifc.h:22-37 `sid_ifc_cmd_t` -/
def cmdNames : List Str :=
  ["undefined", "unknown", "active", "checkpoint", "reply", "scan", "version", "dbdump", "dbstats", "resources",
   "devices"].map txt

/-- src/include/iface/ifc.h:25 -/
def cmdUnknown : Nat := 1
/-- src/include/iface/ifc.h:27 -/
def cmdCheckpoint : Nat := 3
/-- src/include/iface/ifc.h:29 -/
def cmdScan : Nat := 5
/-- src/include/iface/ifc.h:31 -/
def cmdDbdump : Nat := 7

/-- src/iface/ifc.c:134-137 `sid_ifc_cmd_type_to_name`; `none`: read behind the array -/
def typeToName (cmd : Nat) : Option Str := cmdNames[cmd]?

/-- src/iface/ifc.c:146-149 the loop of `sid_ifc_cmd_name_to_type` from command `c` -/
def nameToTypeFrom (name : Str) (c : Nat) : List Str → Nat
  | [] => cmdUnknown
  | n :: l => if name = n then c else nameToTypeFrom name (c + 1) l

/-- src/iface/ifc.c:139-152 `sid_ifc_cmd_name_to_type` (NULL gives 0) -/
def nameToType : Option Str → Nat
  | none => 0
  | some name => nameToTypeFrom name 0 cmdNames

/-- model only, for src/iface/ifc.c:154-174: the `k` bytes of a number in memory (little endian) -/
def leBytes (n : Nat) : Nat → List UInt8
  | 0 => []
  | k + 1 => UInt8.ofNat n :: leBytes (n / 256) k

/-- model only, for src/iface/ifc.c:64-100: a number from its bytes in memory -/
def leNat : List UInt8 → Nat
  | [] => 0
  | b :: l => b.toNat + 256 * leNat l

/-- src/include/iface/ifc-internal.h:18-23 `struct sid_ifc_msg_header` (packed, 12 bytes) -/
structure Hdr where
  status : Nat
  prot : Nat
  cmd : Nat
  flags : Nat
deriving DecidableEq, Repr

/-- the header in memory (ifc-internal.h:18-23) -/
def Hdr.bytes (h : Hdr) : List UInt8 := leBytes h.status 8 ++ leBytes h.prot 1 ++ leBytes h.cmd 1 ++ leBytes h.flags 2

/-- src/iface/ifc.c:76, 94, 117 `memcpy` of a header out of a message; `none`: fewer than 12 bytes are there -/
def hdrOf (m : List UInt8) : Option Hdr :=
  if m.length < 12 then none
  else some ⟨leNat (m.take 8), leNat ((m.drop 8).take 1), leNat ((m.drop 9).take 1), leNat ((m.drop 10).take 2)⟩

/-! ### requests -/

/-- src/include/iface/ifc.h:50-71 the data of a request -/
inductive ReqData
  | none
  | checkpoint (name : Option Str) (keys : Option (List Str))
  | unmodified (mem : Option (List UInt8)) (size : Nat)
deriving DecidableEq, Repr

/-- src/include/iface/ifc.h:61-70 `struct sid_ifc_req` -/
structure Req where
  cmd : Nat
  flags : Nat
  seqnum : Nat
  data : ReqData
deriving DecidableEq, Repr

/-- src/iface/ifc.c:22 -/
def maxMajor : Nat := 2 ^ 20 - 1
/-- src/iface/ifc.c:23 -/
def maxMinor : Nat := 2 ^ 12 - 1

/-- `makedev` of glibc (ifc.c:171) on 32-bit numbers -/
def makedev (ma mi : BitVec 32) : BitVec 64 :=
  (((ma &&& 0xfff#32).setWidth 64) <<< 8) ||| (((ma &&& 0xfffff000#32).setWidth 64) <<< 32) |||
    ((mi &&& 0xff#32).setWidth 64) ||| (((mi &&& 0xffffff00#32).setWidth 64) <<< 12)

/-- `major` of glibc (ubr.c:4162) -/
def majorOf (d : BitVec 64) : BitVec 32 :=
  (((d &&& 0xfff00#64) >>> 8).setWidth 32) ||| (((d &&& 0xfffff00000000000#64) >>> 32).setWidth 32)

/-- `minor` of glibc (ubr.c:4163) -/
def minorOf (d : BitVec 64) : BitVec 32 :=
  ((d &&& 0xff#64).setWidth 32) ||| (((d &&& 0xffffff00000#64) >>> 12).setWidth 32)

/-- src/iface/ifc.c:154-174 `_add_devt_env_to_buffer`: the bytes added -/
def devtBytes (env : List Str) : Except Errno (List UInt8) :=
  match Util.envGetUll env (txt "MAJOR") 0 maxMajor with
  | .error e => .error e
  | .ok ma =>
    match Util.envGetUll env (txt "MINOR") 0 maxMinor with
    | .error e => .error e
    | .ok mi => .ok (leBytes (makedev (BitVec.ofNat 32 ma) (BitVec.ofNat 32 mi)).toNat 8)

/-- src/iface/ifc.c:192-199 a requested variable that is set -/
def keyOps (env : List Str) : List Str → List Op
  | [] => []
  | k :: l =>
    match Util.getenv env k with
    | none => keyOps env l
    | some v => .addFmt (k ++ [61] ++ v) false :: keyOps env l

/-- src/iface/ifc.c:176-204 `_add_checkpoint_env_to_buf`: calls made on the buffer (an error before the first) -/
def checkpointOps (env : List Str) (name : Option Str) (keys : Option (List Str)) : Except Errno (List Op) :=
  match name, keys with
  | some n, some ks =>
    match devtBytes env with
    | .error e => .error e
    | .ok d => .ok (.add d false :: .add (n ++ [0]) false :: keyOps env ks)
  | _, _ => .error .EINVAL

/-- src/iface/ifc.c:206-220 `_add_scan_env_to_buf` -/
def scanOps (env : List Str) : Except Errno (List Op) :=
  match devtBytes env with
  | .error e => .error e
  | .ok d => .ok (.add d false :: env.map fun kv => .add (kv ++ [0]) false)

/-- src/iface/ifc.c:256-281 what is added behind the header -/
def bodyOps (env : List Str) (req : Req) : Except Errno (List Op) :=
  if req.flags.testBit 2 then
    match req.data with
    | .unmodified none n => if n > 0 then .error .EINVAL else .ok []
    | .unmodified (some m) n => if n > 0 then .ok [.add (m.take n) false] else .ok []
    | _ => .error .EINVAL -- the union holds something else: not modelled
  else if req.cmd = cmdScan then scanOps env
  else if req.cmd = cmdCheckpoint then
    match req.data with
    | .checkpoint name keys => checkpointOps env name keys
    | _ => .error .EINVAL
  else .ok []

/-- src/iface/ifc.c:248-254 the header of a request; the fields are truncated to their types -/
def reqHdr (req : Req) : Hdr := ⟨req.seqnum % 2 ^ 64, 2, req.cmd % 256, req.flags % 2 ^ 16⟩

/-- src/iface/ifc.c:154-220: calls made one after the other until one fails -/
def addAll (b : Buf) (fresh : Nat → UInt8) : List Op → Except Errno Buf
  | [] => .ok b
  | op :: ops =>
    match LBuf.step b op fresh with
    | some (b', .err e) => (fun _ => .error e) b'
    | some (b', _) => addAll b' fresh ops
    | none => .error .EINVAL -- not reachable for adds

/-- src/iface/ifc.c:39-43 `struct sid_ifc_rsl`: the buffer and the mapped memory -/
structure Rsl where
  buf : Buf
  shm : Option (List UInt8)

/-- model only, for src/iface/ifc.c:222-350: what `sid_ifc_req` comes to; `pending`: (model only) a schedule ended first -/
inductive Out
  | failed (e : Errno) (sent : List UInt8)
  | ok (r : Rsl) (sent : List UInt8)
  | pending (sent : List UInt8)

/-- src/iface/ifc.c:334-354 the file received for a database dump: result of reading its size, and the mapping.
    (Touching the mapping behind the end of the file would kill the process; the daemon sends files of that size.) -/
def mapShm (file : List UInt8) : Except Errno (Option (List UInt8)) :=
  if file.length < 4 then .error .ENODATA
  else if leNat (file.take 4) < 4 then .error .EBADMSG
  else if leNat (file.take 4) > 4 then .ok (some (file.take (leNat (file.take 4))))
  else .ok none

/-- src/iface/ifc.c:316-354 the end of `sid_ifc_req`, once the reply is complete -/
def finish (req : Req) (b : Buf) (file : Except Errno (List UInt8)) (sent : List UInt8) : Out :=
  if LBuf.count b < 12 then .failed .EBADMSG sent
  else if req.cmd = cmdDbdump then
    match file with
    | .error e => .failed e sent
    | .ok f =>
      match mapShm f with
      | .error e => .failed e sent
      | .ok m => .ok ⟨b, m⟩ sent
  else .ok ⟨b, none⟩ sent

/-- src/iface/ifc.c:292-314 reading the reply -/
def receive (req : Req) (b : Buf) (fresh : Nat → UInt8) (reply : Stream) (rsched : List (IoEv × (Nat → UInt8)))
    (file : Except Errno (List UInt8)) (sent : List UInt8) : Out :=
  match LBuf.recvLoop (LBuf.reset b fresh).1 reply rsched with
  | .complete b' _ => finish req b' file sent
  | .eof b' _ => finish req b' file sent
  | .failed e _ _ => .failed e sent
  | .pending _ _ => .pending sent

/-- src/iface/ifc.c:245-290 the request message in the buffer -/
def message (env : List Str) (req : Req) (fresh : Nat → UInt8) : Except Errno Buf :=
  match LBuf.create .prefixed 0 1 0 fresh with
  | .ok b =>
    match addAll b fresh [.add (reqHdr req).bytes false] with
    | .error e => .error e
    | .ok b1 =>
      match bodyOps env req with
      | .error e => .error e
      | .ok ops => addAll b1 fresh ops
  | .err e => .error e
  | .ub => .error .EINVAL

/-- src/iface/ifc.c:222-366 `sid_ifc_req`.  `wsched`, `rsched`: what the system calls do; `reply`: what the daemon sends;
    `file`: the file passed over the socket (only looked at for a database dump), or the error of receiving it. -/
def request (env : List Str) (req : Req) (fresh : Nat → UInt8) (wsched : List IoEv) (reply : Stream)
    (rsched : List (IoEv × (Nat → UInt8))) (file : Except Errno (List UInt8)) : Out :=
  match message env req fresh with
  | .error e => .failed e []
  | .ok b =>
    match LBuf.writeAll b 0 [] wsched with
    | .failed e out => .failed e out
    | .pending out => .pending out
    | .done out => receive req b fresh reply rsched file out

/-! ### results -/

/-- src/iface/ifc.c:64-132: the data of the buffer (`sid_buf_get_data`) -/
def rslBytes (r : Rsl) : Option (List UInt8) :=
  match (LBuf.getData r.buf 0).2 with
  | .data m => some m
  | _ => none

/-- src/iface/ifc.c:64-81 `sid_ifc_rsl_get_status` -/
def rslStatus (r : Rsl) : Option Nat := (rslBytes r).bind fun m => (hdrOf m).map Hdr.status

/-- src/iface/ifc.c:83-100 `sid_ifc_rsl_get_protocol` -/
def rslProtocol (r : Rsl) : Option Nat := (rslBytes r).bind fun m => (hdrOf m).map Hdr.prot

/-- src/iface/ifc.c:102-132 `sid_ifc_rsl_get_data`: outer `none` is undefined behaviour, inner `none` is NULL -/
def rslData (r : Rsl) : Option (Option (List UInt8)) :=
  match rslBytes r with
  | none => some none
  | some m =>
    (hdrOf m).map fun h =>
      if h.status % 2 = 1 then none
      else
        match r.shm with
        | some f => some (f.drop 4)
        | none => if m.length > 12 then some (m.drop 12) else none

/-! ### the daemon's side of a scan request -/

/-- src/resource/ubr.c:4104-4122 `_device_add_field`: the variable set in the udev namespace -/
def addField (f : Str) : Option (Str × Str) :=
  match f.dropWhile (· ≠ 61) with
  | _ :: c :: v => some (f.takeWhile (· ≠ 61), c :: v)
  | _ => none

/-- src/resource/ubr.c:4179-4182 the loop over the strings behind the device number: the variables set until the end or
    the first one that is refused (the result says which); `none`: no NUL before the end of the message -/
def fieldLoop (m : List UInt8) (acc : List (Str × Str)) : Option (Bool × List (Str × Str)) :=
  if h : m = [] then some (true, acc)
  else if h0 : (0 : UInt8) ∈ m then
    match addField (m.takeWhile (· ≠ 0)) with
    | none => some (false, acc)
    | some kv => fieldLoop ((m.dropWhile (· ≠ 0)).drop 1) (acc ++ [kv])
  else none
termination_by m.length
decreasing_by
  have h1 : (m.dropWhile (· ≠ 0)).length ≤ m.length := (List.dropWhile_sublist _).length_le
  have h2 : 0 < m.length := List.length_pos_iff.mpr h
  simp only [List.length_drop]
  omega

/-- src/resource/ubr.c:4150-4199 `_parse_cmd_udev_env` on the data behind the header: device number, whether all
    variables were taken, and the variables -/
def parseEnv (m : List UInt8) : Option (Except Errno (BitVec 32 × BitVec 32 × Bool × List (Str × Str))) :=
  if m.length ≤ 8 then some (.error .EINVAL)
  else
    let d := BitVec.ofNat 64 (leNat (m.take 8))
    (fieldLoop (m.drop 8) []).map fun r => .ok (majorOf d, minorOf d, r.1, r.2)

end Sid.Ifc
