import Verif.Model.WrkChan
import Verif.Spec.WrkChan
import Verif.Proof.BufIo
import Verif.Props.BufIo
namespace Sid.Chan
open Sid.LBuf (Buf IoEv Stream Inv RInv)
open Sid.Spec.Frame Sid.Spec.Chan

/-! ### Adding to a buffer that can grow -/

theorem add_ok {b : Buf} {bs : List UInt8} {fresh} (I : Inv b) (hm : b.markSet = false) (hs : b.step ≠ 0) (hl : b.limit = 0) :
    ∃ b' p, LBuf.add b bs false fresh = (b', .pos p) ∧ Inv b' ∧ b'.mode = b.mode ∧ b'.markSet = false ∧ b'.step = b.step ∧
      b'.limit = b.limit ∧ b'.size = b.size ∧ LBuf.bytes b' = LBuf.bytes b ++ bs := by
  obtain ⟨c, hc⟩ := (LBuf.realloc_false_ok_iff (b := b) (needed := LBuf.startOff b + bs.length) (fresh := fresh) (.inl hl)).mpr
    (.inr ⟨hs, .inl hl⟩)
  obtain ⟨e1, e2, e3, e4, -⟩ := LBuf.realloc_ok hc
  have hadd : LBuf.add b bs false fresh =
      ({ c with mem := LBuf.store c.mem (LBuf.startOff b) bs, used := LBuf.startOff b + bs.length }, .pos (LBuf.count b)) := by
    unfold LBuf.add
    simp only [hm, hc, LBuf.setMark]
    rfl
  obtain ⟨i1, i2, i3⟩ := LBuf.add_spec I hadd
  rcases i3 with ⟨e, he, -⟩ | ⟨-, -, i4, i5, -⟩
  · cases he
  · exact ⟨_, _, hadd, i1, i2, i5, e3, e4, e2, i4⟩

/-! ### Sending -/

/-- the bytes of a message behind the size -/
def payload (m : Msg) : List UInt8 := cmdBytes m.cmd ++ m.bytes

/-- the byte carrying a file -/
def extCells (socket : Bool) (m : Msg) : List Cell :=
  match m.ext with
  | none => []
  | some fd => if socket then [(0xFF, fd)] else []

/-- a message on the wire -/
def wire (socket : Bool) (m : Msg) : List Cell := plainCells (frame (payload m)) ++ extCells socket m

/-- messages on the wire -/
def wires (socket : Bool) (l : List Msg) : List Cell := l.flatMap (wire socket)

/-- a lane's buffer between two messages -/
structure TInv (mode : LBuf.Mode) (b : Buf) : Prop where
  inv : Inv b
  mode : b.mode = mode
  step : b.step ≠ 0
  limit : b.limit = 0
  used : b.used = 0
  mark : b.markSet = false

theorem TInv.bytes {mode} {b : Buf} (T : TInv mode b) : LBuf.bytes b = [] := by simp [LBuf.bytes, T.used]

/-- the content of a filled buffer -/
def content (mode : LBuf.Mode) (m : Msg) : List UInt8 :=
  match mode with
  | .plain => m.bytes
  | .prefixed => payload m

theorem fill_spec {mode} {tx : Buf} (T : TInv mode tx) (m : Msg) (fresh) :
    ∃ b, fill tx m fresh = (b, true) ∧ Inv b ∧ b.mode = mode ∧ b.step ≠ 0 ∧ b.limit = 0 ∧ LBuf.bytes b = content mode m := by
  have key : ∀ c : Buf, Inv c → c.markSet = false → c.step ≠ 0 → c.limit = 0 → c.mode = mode →
      ∃ b, (if m.bytes = [] then (c, true) else
        match LBuf.add c m.bytes false fresh with
        | (b, .err _) => (b, false)
        | (b, _) => (b, true)) = (b, true) ∧ Inv b ∧ b.mode = mode ∧ b.step ≠ 0 ∧ b.limit = 0 ∧
          LBuf.bytes b = LBuf.bytes c ++ m.bytes := by
    intro c I hm hs hl hmode
    by_cases h : m.bytes = []
    · simp only [h, if_true, List.append_nil]
      exact ⟨c, rfl, I, hmode, hs, hl, rfl⟩
    · obtain ⟨b', p, ha, i1, i2, i3, i4, i5, i6, i7⟩ := add_ok (bs := m.bytes) (fresh := fresh) I hm hs hl
      simp only [h, if_false, ha]
      exact ⟨b', rfl, i1, by rw [i2, hmode], by rw [i4]; exact hs, by rw [i5]; exact hl, i7⟩
  unfold fill
  cases mode with
  | plain =>
    simp only [T.mode, if_true]
    obtain ⟨b, h1, h2, h3, h4, h5, h6⟩ := key tx T.inv T.mark T.step T.limit T.mode
    exact ⟨b, h1, h2, h3, h4, h5, by rw [h6, T.bytes]; rfl⟩
  | prefixed =>
    obtain ⟨b', p, ha, i1, i2, i3, i4, i5, i6, i7⟩ := add_ok (bs := cmdBytes m.cmd) (fresh := fresh) T.inv T.mark T.step T.limit
    simp only [T.mode, ha, if_true]
    obtain ⟨b, h1, h2, h3, h4, h5, h6⟩ := key b' i1 i3 (by rw [i4]; exact T.step) (by rw [i5]; exact T.limit) (by rw [i2, T.mode])
    exact ⟨b, h1, h2, h3, h4, h5, by rw [h6, i7, T.bytes]; rfl⟩

theorem sendAnc_ok {fd : Option Nat} {l : List IoEv} {o : List Cell} (h : sendAnc fd l = (.ok, o)) : o = [(0xFF, fd)] := by
  induction l with
  | nil => simp [sendAnc] at h
  | cons e l ih =>
    cases e with
    | xfer k => simp only [sendAnc, Prod.mk.injEq, true_and] at h; exact h.symm
    | fail er =>
      simp only [sendAnc] at h
      split at h
      · exact ih h
      · simp at h

theorem sendExt_ok {socket : Bool} {m : Msg} {l : List IoEv} {o : List Cell} (h : sendExt socket m l = (.ok, o)) :
    o = extCells socket m := by
  unfold sendExt at h
  unfold extCells
  cases hx : m.ext with
  | none => simp only [hx, Prod.mk.injEq, true_and] at h; exact h.symm
  | some fd =>
    simp only [hx] at h
    cases socket with
    | true => exact sendAnc_ok h
    | false => simp only [Bool.false_eq_true, if_false, Prod.mk.injEq, true_and] at h; exact h.symm

/-- what a successful send brings to the kernel -/
def sentCells (mode : LBuf.Mode) (socket : Bool) (m : Msg) : List Cell :=
  match mode with
  | .plain => plainCells m.bytes ++ extCells socket m
  | .prefixed => wire socket m

/-- the bytes written for a message -/
def imageOf (mode : LBuf.Mode) (m : Msg) : List UInt8 :=
  match mode with
  | .plain => m.bytes
  | .prefixed => frame (payload m)

theorem image_content {mode} {b : Buf} {m : Msg} (I : Inv b) (hm : b.mode = mode) (hb : LBuf.bytes b = content mode m) :
    LBuf.image b = imageOf mode m := by
  rw [LBuf.image_eq b I, hm]
  cases mode with
  | plain => exact hb
  | prefixed =>
    have : b.used ≠ 0 := by
      intro h0
      have : LBuf.bytes b = [] := by simp [LBuf.bytes, h0]
      rw [this] at hb; simp [content, payload, cmdBytes] at hb
    simp only [this, if_false, hb]
    rfl

theorem transmit_ok {mode} {socket : Bool} {b : Buf} {m : Msg} {e : SEv} {o : List Cell} (I : Inv b) (hm : b.mode = mode)
    (hb : LBuf.bytes b = content mode m) (hne : IoEv.fail .ENODATA ∉ e.wsched) (h : transmit socket b m e = (.ok, o)) :
    o = sentCells mode socket m := by
  have hw := (LBuf.writeAll_spec e.wsched b 0 [] I (Nat.zero_le _) (by simp)).1
  have him := image_content I hm hb
  unfold transmit at h
  split at h
  · next o' ho' =>
    have := hw o' ho' hne
    simp only [Prod.mk.injEq] at h
    obtain ⟨h1, h2⟩ := h
    have h3 : sendExt socket m e.anc = (.ok, (sendExt socket m e.anc).2) := by rw [← h1]
    rw [sendExt_ok h3] at h2
    rw [← h2, this, him]
    cases mode <;> rfl
  · simp at h
  · simp at h

theorem send_spec {mode} {socket : Bool} {tx : Buf} (T : TInv mode tx) (m : Msg) (e : SEv) :
    TInv mode (send socket tx m e).1 ∧
    (IoEv.fail .ENODATA ∉ e.wsched → (send socket tx m e).2.1 = .ok → (send socket tx m e).2.2 = sentCells mode socket m) := by
  obtain ⟨b, h1, h2, h3, h4, h5, h6⟩ := fill_spec T m e.fresh
  have I' := LBuf.updatePrefix_inv b h2
  have hf : (LBuf.updatePrefix b).step = b.step ∧ (LBuf.updatePrefix b).limit = b.limit := by
    unfold LBuf.updatePrefix; split <;> exact ⟨rfl, rfl⟩
  obtain ⟨r1, r2, r3, r4, r5, r6, r7, r8, r9⟩ := LBuf.reset_spec (b := LBuf.updatePrefix b) (b' := (LBuf.reset (LBuf.updatePrefix b) e.fresh).1)
    (r := (LBuf.reset (LBuf.updatePrefix b) e.fresh).2) (fresh := e.fresh) I'.room rfl
  unfold send
  simp only [h1]
  refine ⟨⟨r1, by rw [r2, (LBuf.updatePrefix_fields b).2, h3], by rw [r8, hf.1]; exact h4, by rw [r9, hf.2]; exact h5, r5, r4⟩, ?_⟩
  intro hne hok
  exact transmit_ok h2 h3 h6 hne (by rw [← hok])

/-- What a sequence of sends brings to the kernel: all messages up to the first failure, then anything. -/
theorem sendAll_spec {mode} {socket : Bool} (l : List (Msg × SEv)) (hne : ∀ x ∈ l, IoEv.fail .ENODATA ∉ x.2.wsched) :
    ∀ (tx : Buf) (outs : List SOut) (cells : List Cell), TInv mode tx → sendAll socket tx l = (outs, cells) →
    ∃ good rest junk, l = good ++ rest ∧ cells = good.flatMap (fun x => sentCells mode socket x.1) ++ junk ∧
      outs.take good.length = good.map (fun _ => .ok) ∧ (rest = [] → junk = []) ∧
      (∀ x t, rest = x :: t → ∃ r, outs[good.length]? = some r ∧ r ≠ .ok) := by
  induction l with
  | nil => intro tx outs cells T h; cases h; exact ⟨[], [], [], rfl, rfl, rfl, fun _ => rfl, fun _ _ h => by cases h⟩
  | cons x l ih =>
    intro tx outs cells T h
    obtain ⟨m, e⟩ := x
    obtain ⟨s1, s2⟩ := send_spec (socket := socket) T m e
    have s2 := s2 (hne _ (List.mem_cons_self ..))
    generalize hq : send socket tx m e = q at s1 s2
    obtain ⟨tx', r, o⟩ := q
    simp only [sendAll, hq] at h
    cases r with
    | pending => cases h; exact ⟨[], _, _, rfl, rfl, rfl, nofun, fun _ _ _ => ⟨.pending, rfl, by simp⟩⟩
    | failed er => cases h; exact ⟨[], _, _, rfl, rfl, rfl, nofun, fun _ _ _ => ⟨.failed er, rfl, by simp⟩⟩
    | ok =>
      have s2 := s2 rfl
      simp only at s2
      obtain ⟨good, rest, junk, g1, g2, g3, g4, g5⟩ := ih (fun x hx => hne x (List.mem_cons_of_mem _ hx)) tx' _ _ s1 rfl
      cases h
      refine ⟨(m, e) :: good, rest, junk, by rw [g1]; rfl, ?_, ?_, g4, ?_⟩
      · rw [s2, g2, List.flatMap_cons, List.append_assoc]
      · simp only [List.length_cons, List.take_succ_cons, g3, List.map_cons]
      · intro x t hx
        obtain ⟨r, h1, h2⟩ := g5 x t hx
        exact ⟨r, by simpa using h1, h2⟩

theorem create_tinv {mode size st} {fresh b} (hst : st ≠ 0) (h : LBuf.create mode size st 0 fresh = .ok b) : TInv mode b := by
  obtain ⟨h1, h2, h3, h4, h5, h6, h7, h8, h9, -⟩ := LBuf.create_spec h
  exact ⟨h1, h2, by rw [h8]; exact hst, h9, h5, h4⟩

/-! ### Receiving -/

/-- the suffix as bytes -/
def Side.sfx (sd : Side) : List UInt8 := sd.suffix.getD []

theorem addSuffix_ok {sd : Side} {b : Buf} {fresh} (I : Inv b) (hm : b.markSet = false) (hs : b.step ≠ 0) (hl : b.limit = 0) :
    ∃ b', addSuffix sd b fresh = (b', true) ∧ Inv b' ∧ b'.mode = b.mode ∧ b'.markSet = false ∧ b'.step = b.step ∧
      b'.limit = b.limit ∧ b'.size = b.size ∧ LBuf.bytes b' = LBuf.bytes b ++ sd.sfx := by
  unfold addSuffix Side.sfx
  cases h : sd.suffix with
  | none => exact ⟨b, rfl, I, rfl, hm, rfl, rfl, rfl, by simp⟩
  | some x =>
    obtain ⟨b', p, ha, r⟩ := add_ok (bs := x) (fresh := fresh) I hm hs hl
    simp only [ha]
    exact ⟨b', rfl, r⟩

/-- what the model notes for a message -/
def noteOf (sd : Side) : Msg → List Note
  | .data d => [.call ⟨d.data ++ sd.sfx, if sd.socket then d.ext else none⟩]
  | .yield => if sd.proxy then [.yielded] else []

theorem rd32_payload (m : Msg) (sfx : List UInt8) : LBuf.rd32 (payload m ++ sfx) = m.cmd := by
  unfold payload cmdBytes
  cases m with
  | yield => rfl
  | data d => cases h : d.ext <;> simp [Msg.cmd, h, LBuf.rd32, cmdData, cmdDataExt]

theorem payload_length (m : Msg) : (payload m).length = m.bytes.length + 4 := by simp [payload, cmdBytes]

theorem recvAnc_cons (c : Cell) (cs : List Cell) (closed : Bool) (l : List IoEv) :
    recvAnc (c :: cs) closed l = .pending ∨ (∃ e, recvAnc (c :: cs) closed l = .failed e) ∨
      recvAnc (c :: cs) closed l = .got c.2 cs := by
  induction l with
  | nil => exact .inl rfl
  | cons e l ih =>
    cases e with
    | xfer k => exact .inr (.inr rfl)
    | fail er =>
      simp only [recvAnc]
      split
      · exact ih
      · exact .inr (.inl ⟨er, rfl⟩)

/-- the message being received -/
structure MInv (sd : Side) (m : Msg) (after : List Cell) (c : Chan) : Prop where
  recv : RInv (frame (payload m)) ((extCells sd.socket m ++ after).map Prod.fst) c.buf ⟨c.cells.map Prod.fst, c.closed⟩
  cells : c.cells = (wire sd.socket m ++ after).drop c.buf.used
  less : c.buf.used < (frame (payload m)).length
  size : c.buf.size = 4
  limit : c.buf.limit = 0

/-- a complete message with its suffix -/
theorem getData_all {b : Buf} {x : List UInt8} (I : Inv b) (hx : LBuf.bytes b = x) :
    ∃ b', LBuf.getData b 0 = (b', .data x) ∧ Inv b' ∧ b'.mode = b.mode ∧ b'.size = b.size ∧ b'.step = b.step ∧ b'.limit = b.limit := by
  obtain ⟨g1, g2, g3, g4, g5, g6⟩ := LBuf.getData_spec (b := b) (b' := (LBuf.getData b 0).1) (r := (LBuf.getData b 0).2) (p := 0) I rfl
  refine ⟨(LBuf.getData b 0).1, ?_, g1, g2, ?_⟩
  · rcases g6 with ⟨-, -, h⟩ | ⟨h, -⟩
    · omega
    · rw [List.drop_zero, hx] at h; rw [← h]
  · unfold LBuf.getData
    split
    · exact ⟨rfl, rfl, rfl⟩
    · dsimp only
      split <;> split <;> exact ⟨rfl, rfl, rfl⟩

/-- ready for the next message, or for whatever comes behind the last one -/
structure Idle (c : Chan) : Prop where
  mode : c.buf.mode = .prefixed
  step : c.buf.step = 1
  limit : c.buf.limit = 0
  size : c.buf.size = 4
  used : c.buf.used = 0
  mark : c.buf.markSet = false
  mem : c.buf.mem.length = 8
  alive : c.alive = true

theorem idle_reset {b : Buf} {fresh} (I : Inv b) (hm : b.mode = .prefixed) (hs : b.step = 1) (hl : b.limit = 0) (hz : b.size = 4)
    (c : Chan) (hc : c.buf = (LBuf.reset b fresh).1) (ha : c.alive = true) : Idle c := by
  obtain ⟨r1, r2, r3, r4, r5, r6, r7, r8, r9⟩ := LBuf.reset_spec (b := b) (b' := (LBuf.reset b fresh).1) (r := (LBuf.reset b fresh).2)
    (fresh := fresh) I.room rfl
  refine ⟨by rw [hc, r2, hm], by rw [hc, r8, hs], by rw [hc, r9, hl], by rw [hc, r7, hz], by rw [hc, r5], by rw [hc, r4], ?_, ha⟩
  rcases r6 with ⟨-, h⟩ | ⟨-, h, -⟩
  · rw [hc, h, hz, hm]; rfl
  · exact absurd hl h

theorem plainCells_fst (l : List UInt8) : (plainCells l).map Prod.fst = l := by
  simp [plainCells, List.map_map, Function.comp_def]

theorem Idle.start {sd : Side} {m : Msg} {after : List Cell} {c : Chan} (h : Idle c) (hc : c.cells = wire sd.socket m ++ after)
    (hm : m.bytes.length + 8 < 2 ^ 32) : MInv sd m after c := by
  have hp := payload_length m
  have hf := LBuf.frame_length (payload m)
  refine ⟨LBuf.rinv_init h.mode h.step (.inl h.limit) h.used (by rw [h.mem, h.size]) (by rw [h.size]; omega) ?_ h.mark,
    by rw [h.used, hc]; rfl, by rw [h.used]; omega, h.size, h.limit⟩
  rw [hc, wire, List.append_assoc, List.map_append, plainCells_fst]

/-- One event while a message is being received: the channel ends without a note, the message goes on, or it is there. -/
theorem step_spec {sd : Side} {m : Msg} {after : List Cell} {c : Chan} (M : MInv sd m after c) (ha : c.alive = true)
    (hm : m.bytes.length + 8 < 2 ^ 32) (e : REv) :
    ∃ c', step sd c e = some c' ∧ c'.closed = c.closed ∧
      ((c'.alive = false ∧ c'.notes = c.notes) ∨
       (c'.alive = true ∧ c'.notes = c.notes ∧ MInv sd m after c' ∧ c.buf.used ≤ c'.buf.used) ∨
       (c'.notes = c.notes ++ noteOf sd m ∧ c'.cells = after ∧ Idle c')) ∧
      (e.err = false → (∀ er, e.io = .fail er → er = .EAGAIN ∨ er = .EINTR) → (∀ er, IoEv.fail er ∈ e.anc → er = .EAGAIN ∨ er = .EINTR) →
        (∃ k, IoEv.xfer k ∈ e.anc) → c'.alive = true ∧ (e.io.moves = true → (MInv sd m after c' ∧ c.buf.used < c'.buf.used) ∨
          (c'.notes = c.notes ++ noteOf sd m ∧ c'.cells = after ∧ Idle c'))) := by
  have hp := payload_length m
  have hfl := LBuf.frame_length (payload m)
  unfold step
  rw [if_neg (by simp [ha])]
  cases he : e.err with
  | true =>
    simp only [if_true]
    exact ⟨_, rfl, rfl, .inl ⟨rfl, rfl⟩, fun h => by cases h⟩
  | false =>
    simp only [Bool.false_eq_true, if_false]
    rcases LBuf.read_step (by omega) M.recv M.less e.io e.fresh with ⟨er, hio, hr⟩ | ⟨k, b', s', n, hio, hr, hn, hu, R', hcl, hbs, hbl⟩
    · simp only [hr, List.length_map, Nat.sub_self, List.drop_zero]
      by_cases hE : er = .EAGAIN ∨ er = .EINTR
      · simp only [hE, if_true]
        refine ⟨_, rfl, rfl, .inr (.inl ⟨ha, rfl, M, Nat.le_refl _⟩), fun _ _ _ _ => ⟨ha, fun h => ?_⟩⟩
        rw [hio] at h; cases h
      · simp only [hE, if_false]
        refine ⟨_, rfl, rfl, .inl ⟨rfl, rfl⟩, fun _ h => absurd (h er hio) hE⟩
    · have hw : (wire sd.socket m ++ after).length = (frame (payload m)).length + (extCells sd.socket m ++ after).length := by
        simp [wire, plainCells]
      have hlen : c.cells.length = (wire sd.socket m ++ after).length - c.buf.used := by rw [M.cells, List.length_drop]
      have hs' : s'.data.length = (wire sd.socket m ++ after).length - b'.used := by
        have := R'.usedF
        rw [R'.str, List.length_append, List.length_drop, List.length_map, hw]; omega
      have hd : c.cells.length - s'.data.length = n := by
        have := R'.usedF; rw [hlen, hs']; omega
      have hcells : c.cells.drop n = (wire sd.socket m ++ after).drop b'.used := by rw [M.cells, List.drop_drop, hu]
      have hn0 : n ≠ 0 := by omega
      simp only [hr, hd, hcells, hn0, if_false, R'.mode]
      rw [LBuf.isComplete_frame (by omega) R']
      by_cases hc : b'.used = (frame (payload m)).length
      · simp only [hc, decide_true, if_true]
        obtain ⟨-, hrest, hbytes⟩ := LBuf.complete_content R' hc
        have I := LBuf.complete_inv R' hc
        obtain ⟨b2, a1, a2, a3, a4, a5, a6, a7, a8⟩ := addSuffix_ok (sd := sd) (fresh := e.fresh2) I R'.mark (by rw [R'.step]; simp)
          (by rw [hbl]; exact M.limit)
        rw [hbytes] at a8
        obtain ⟨b3, g1, g2, g3, g4, g5, g6⟩ := getData_all a2 a8
        have hdrop : (wire sd.socket m ++ after).drop (frame (payload m)).length = extCells sd.socket m ++ after := by
          have : (plainCells (frame (payload m))).length = (frame (payload m)).length := by simp [plainCells]
          rw [wire, List.append_assoc, ← this, List.drop_left]
        simp only [onComplete, a1, g1, onMsg, hdrop]
        have hlt : ¬ (payload m ++ sd.sfx).length < 4 := by rw [List.length_append]; omega
        simp only [hlt, if_false, rd32_payload]
        have hdat : (payload m ++ sd.sfx).drop 4 = m.bytes ++ sd.sfx := by simp [payload, cmdBytes]
        have hidle : ∀ c' : Chan, c'.buf = (LBuf.reset b3 e.fresh3).1 → c'.alive = true → Idle c' :=
          fun c' h1 h2 => idle_reset g2 (by rw [g3, a3, R'.mode]) (by rw [g5, a5, R'.step]) (by rw [g6, a6, hbl, M.limit])
            (by rw [g4, a7, hbs, M.size]) c' h1 h2
        rw [hdat]
        cases m with
        | yield =>
          have h1 : ¬ (Msg.cmd .yield = cmdDataExt ∧ sd.socket = true) := by simp [Msg.cmd, cmdYield, cmdDataExt]
          simp only [h1, if_false, handle]
          have h2 : ¬ (Msg.cmd .yield = cmdData ∨ Msg.cmd .yield = cmdDataExt) := by simp [Msg.cmd, cmdYield, cmdDataExt, cmdData]
          simp only [h2, if_false]
          have hx : extCells sd.socket .yield = [] := rfl
          cases hpx : sd.proxy with
          | true =>
            have h3 : Msg.cmd .yield = cmdYield ∧ (true = true) := ⟨rfl, rfl⟩
            simp only [h3, if_true, noteOf, hpx, hx, List.nil_append]
            refine ⟨_, rfl, rfl, .inr (.inr ⟨rfl, rfl, hidle _ rfl ha⟩), fun _ _ _ _ => ⟨ha, fun _ => .inr ⟨rfl, rfl, hidle _ rfl ha⟩⟩⟩
          | false =>
            have h3 : ¬ (Msg.cmd .yield = cmdYield ∧ (false = true)) := by simp
            have h4 : Msg.cmd .yield ≤ 3 := by simp [Msg.cmd, cmdYield]
            simp only [h3, h4, if_false, if_true, noteOf, hpx, hx, List.nil_append, List.append_nil, Bool.false_eq_true]
            refine ⟨_, rfl, rfl, .inr (.inr ⟨rfl, rfl, hidle _ rfl ha⟩), fun _ _ _ _ => ⟨ha, fun _ => .inr ⟨rfl, rfl, hidle _ rfl ha⟩⟩⟩
        | data d =>
          have hbd : (Msg.data d).bytes = d.data := rfl
          rw [hbd]
          cases hx : d.ext with
          | none =>
            have hcm : Msg.cmd (.data d) = cmdData := by simp [Msg.cmd, hx]
            have h1 : ¬ (cmdData = cmdDataExt ∧ sd.socket = true) := by simp [cmdData, cmdDataExt]
            have h0 : (cmdData = cmdData ∨ cmdData = cmdDataExt) := .inl rfl
            have hxc : extCells sd.socket (.data d) = [] := by simp [extCells, Msg.ext, hx]
            have hno : noteOf sd (.data d) = [.call ⟨d.data ++ sd.sfx, none⟩] := by simp [noteOf, hx]
            simp only [hcm, h1, h0, if_false, if_true, handle, hxc, hno, List.nil_append]
            refine ⟨_, rfl, rfl, .inr (.inr ⟨rfl, rfl, hidle _ rfl ha⟩), fun _ _ _ _ => ⟨ha, fun _ => .inr ⟨rfl, rfl, hidle _ rfl ha⟩⟩⟩
          | some fd =>
            have hcm : Msg.cmd (.data d) = cmdDataExt := by simp [Msg.cmd, hx]
            have h0 : (cmdDataExt = cmdData ∨ cmdDataExt = cmdDataExt) := .inr rfl
            cases hso : sd.socket with
            | false =>
              have h1 : ¬ (cmdDataExt = cmdDataExt ∧ false = true) := by simp
              have hxc : extCells false (.data d) = [] := by simp [extCells, Msg.ext, hx]
              have hno : noteOf sd (.data d) = [.call ⟨d.data ++ sd.sfx, none⟩] := by simp [noteOf, hso]
              simp only [hcm, h1, h0, if_false, if_true, handle, hxc, hno, List.nil_append]
              refine ⟨_, rfl, rfl, .inr (.inr ⟨rfl, rfl, hidle _ rfl ha⟩), fun _ _ _ _ => ⟨ha, fun _ => .inr ⟨rfl, rfl, hidle _ rfl ha⟩⟩⟩
            | true =>
              have h1 : (cmdDataExt = cmdDataExt ∧ true = true) := by simp
              have hxc : extCells true (.data d) = [(0xFF, fd)] := by simp [extCells, Msg.ext, hx]
              have hno : noteOf sd (.data d) = [.call ⟨d.data ++ sd.sfx, some fd⟩] := by simp [noteOf, hso, hx]
              simp only [hcm, h1, if_true, hxc, hno, List.cons_append, List.nil_append]
              have hdone : ∀ l : List IoEv, (∀ er, IoEv.fail er ∈ l → er = .EAGAIN ∨ er = .EINTR) → (∃ k, IoEv.xfer k ∈ l) →
                  recvAnc ((0xFF, fd) :: after) c.closed l = .got fd after := by
                intro l
                induction l with
                | nil => rintro - ⟨k, hk⟩; cases hk
                | cons x l ih =>
                  intro h1 ⟨k, hk⟩
                  cases x with
                  | xfer k => rfl
                  | fail er =>
                    have := h1 er (List.mem_cons_self ..)
                    simp only [recvAnc, this, if_true]
                    refine ih (fun er h => h1 er (List.mem_cons_of_mem _ h)) ⟨k, ?_⟩
                    simpa using hk
              rcases recvAnc_cons (0xFF, fd) after c.closed e.anc with h | ⟨er, h⟩ | h
              · simp only [h]
                refine ⟨_, rfl, rfl, .inl ⟨rfl, rfl⟩, fun _ _ h2 h3 => ?_⟩
                have := hdone _ h2 h3; rw [h] at this; cases this
              · simp only [h]
                refine ⟨_, rfl, rfl, .inl ⟨rfl, rfl⟩, fun _ _ h2 h3 => ?_⟩
                have := hdone _ h2 h3; rw [h] at this; cases this
              · simp only [h, handle, h0, if_true]
                refine ⟨_, rfl, rfl, .inr (.inr ⟨rfl, rfl, hidle _ rfl ha⟩), fun _ _ _ _ => ⟨ha, fun _ => .inr ⟨rfl, rfl, hidle _ rfl ha⟩⟩⟩
      · have hlt : b'.used < (frame (payload m)).length := by have := R'.usedF; omega
        simp only [hc, decide_false, Bool.false_eq_true, if_false]
        have M' : MInv sd m after { c with buf := b', cells := (wire sd.socket m ++ after).drop b'.used } := by
          refine ⟨?_, rfl, hlt, by simp only [hbs, M.size], by simp only [hbl, M.limit]⟩
          have hsd : (⟨((wire sd.socket m ++ after).drop b'.used).map Prod.fst, c.closed⟩ : Stream) = s' := by
            obtain ⟨d, cl⟩ := s'
            simp only [Stream.mk.injEq]
            simp only at hcl
            refine ⟨?_, hcl.symm⟩
            have := R'.str
            simp only at this
            rw [this, wire, List.append_assoc, List.map_drop, List.map_append, plainCells_fst, List.drop_append_of_le_length R'.usedF]
          rw [show ({ c with buf := b', cells := (wire sd.socket m ++ after).drop b'.used } : Chan).closed = c.closed from rfl]
          exact hsd ▸ R'
        exact ⟨_, rfl, rfl, .inr (.inl ⟨ha, rfl, M', by simp only; omega⟩), fun _ _ _ _ => ⟨ha, fun _ => .inl ⟨M', by simp only; omega⟩⟩⟩

/-! ### Histories -/

/-- the messages not yet received and what the kernel holds behind them -/
def Rel (sd : Side) (todo : List Msg) (junk : List Cell) (c : Chan) : Prop :=
  match todo with
  | [] => Idle c ∧ c.cells = junk
  | m :: t => MInv sd m (wires sd.socket t ++ junk) c ∧ c.alive = true

theorem Rel.of_idle {sd : Side} {todo : List Msg} {junk : List Cell} {c : Chan} (h : Idle c) (hc : c.cells = wires sd.socket todo ++ junk)
    (hl : ∀ m ∈ todo, m.bytes.length + 8 < 2 ^ 32) : Rel sd todo junk c := by
  cases todo with
  | nil => exact ⟨h, hc⟩
  | cons m t =>
    refine ⟨h.start ?_ (hl m (List.mem_cons_self ..)), h.alive⟩
    rw [hc, wires, List.flatMap_cons, List.append_assoc]; rfl

theorem step_dead {sd : Side} {c : Chan} (h : c.alive = false) (e : REv) : step sd c e = some c := by
  unfold step; rw [if_pos (by simp [h])]

theorem run_dead {sd : Side} {c : Chan} (h : c.alive = false) (l : List REv) : run sd c l = some c := by
  induction l with
  | nil => rfl
  | cons e l ih => simp only [run, step_dead h, Option.bind_some, ih]

theorem handle_notes {sd : Side} {c c' : Chan} {b cmd d fresh} (h : handle sd c b cmd d fresh = some c') : c.notes <+: c'.notes := by
  unfold handle at h
  dsimp only at h
  split at h
  · cases h; exact ⟨_, rfl⟩
  · split at h
    · cases h; exact ⟨_, rfl⟩
    · split at h
      · cases h; exact List.prefix_refl _
      · cases h

theorem step_notes {sd : Side} {c c' : Chan} {e : REv} (h : step sd c e = some c') : c.notes <+: c'.notes := by
  unfold step at h
  split at h
  · cases h; exact List.prefix_refl _
  · split at h
    · cases h; exact List.prefix_refl _
    · split at h
      · dsimp only at h
        split at h
        · unfold onEof at h
          split at h
          · cases h; exact List.prefix_refl _
          · split at h
            · cases h; exact List.prefix_refl _
            · split at h
              · simp only [Option.map_eq_some_iff] at h
                obtain ⟨c2, h2, rfl⟩ := h
                have := handle_notes h2; exact this
              · cases h
        · split at h
          · cases h; exact List.prefix_refl _
          · split at h
            · unfold onComplete at h
              split at h
              · cases h; exact List.prefix_refl _
              · split at h
                · unfold onMsg at h
                  split at h
                  · cases h
                  · dsimp only at h
                    split at h
                    · split at h
                      · cases h; exact List.prefix_refl _
                      · cases h; exact List.prefix_refl _
                      · have := handle_notes h; exact this
                    · have := handle_notes h; exact this
                · cases h
            · cases h; exact List.prefix_refl _
      · dsimp only at h
        split at h
        · cases h; exact List.prefix_refl _
        · cases h; exact List.prefix_refl _

theorem run_notes {sd : Side} (l : List REv) : ∀ {c c' : Chan}, run sd c l = some c' → c.notes <+: c'.notes := by
  induction l with
  | nil => intro c c' h; cases h; exact List.prefix_refl _
  | cons e l ih =>
    intro c c' h
    simp only [run, Option.bind_eq_some_iff] at h
    obtain ⟨c1, h1, h2⟩ := h
    exact (step_notes h1).trans (ih h2)

/-- Whatever follows the messages, they come first and in order. -/
theorem run_junk {sd : Side} {junk : List Cell} (l : List REv) : ∀ (todo : List Msg) (c c' : Chan), Rel sd todo junk c →
    (∀ m ∈ todo, m.bytes.length + 8 < 2 ^ 32) → run sd c l = some c' →
    (∃ pre, pre <+: todo ∧ c'.notes = c.notes ++ pre.flatMap (noteOf sd)) ∨ (c.notes ++ todo.flatMap (noteOf sd) <+: c'.notes) := by
  induction l with
  | nil => intro todo c c' R _ h; cases h; exact .inl ⟨[], List.nil_prefix, by simp⟩
  | cons e l ih =>
    intro todo c c' R hl h
    cases todo with
    | nil => refine .inr ?_; simpa using run_notes _ h
    | cons m t =>
      obtain ⟨M, ha⟩ := R
      have hm := hl m (List.mem_cons_self ..)
      obtain ⟨c1, h1, hcl, hd, -⟩ := step_spec M ha hm e
      simp only [run, h1, Option.bind_some] at h
      rcases hd with ⟨d1, d2⟩ | ⟨d1, d2, d3, -⟩ | ⟨d1, d2, d3⟩
      · rw [run_dead d1] at h
        cases h
        exact .inl ⟨[], List.nil_prefix, by simp [d2]⟩
      · have := ih (m :: t) c1 c' ⟨d3, d1⟩ hl h
        rwa [d2] at this
      · have hl' : ∀ m ∈ t, m.bytes.length + 8 < 2 ^ 32 := fun q hq => hl q (List.mem_cons_of_mem _ hq)
        rcases ih t c1 c' (Rel.of_idle d3 d2 hl') hl' h with ⟨pre, p1, p2⟩ | p
        · refine .inl ⟨m :: pre, (List.prefix_cons_inj m).mpr p1, ?_⟩
          rw [p2, d1, List.flatMap_cons, List.append_assoc]
        · refine .inr ?_
          rwa [d1, List.append_assoc, ← List.flatMap_cons] at p

/-- Nothing is there any more. -/
theorem step_idle {sd : Side} {c : Chan} (h : Idle c) (hc : c.cells = []) (e : REv) :
    ∃ c', step sd c e = some c' ∧ c'.notes = c.notes ∧ (c'.alive = false ∨ (Idle c' ∧ c'.cells = [])) := by
  unfold step
  rw [if_neg (by simp [h.alive])]
  split
  · exact ⟨_, rfl, rfl, .inl rfl⟩
  · have hcomp : LBuf.isComplete c.buf = false := by simp [LBuf.isComplete, h.mode, h.used]
    have hz : LBuf.expected c.buf = 0 := by simp [LBuf.expected, h.used]
    have hr : (∃ er, LBuf.read c.buf ⟨c.cells.map Prod.fst, c.closed⟩ e.io e.fresh = (c.buf, ⟨c.cells.map Prod.fst, c.closed⟩, .error er)) ∨
        LBuf.read c.buf ⟨c.cells.map Prod.fst, c.closed⟩ e.io e.fresh = (c.buf, ⟨c.cells.map Prod.fst, c.closed⟩, .ok 0) := by
      unfold LBuf.read
      simp only [h.mode, LBuf.readPrefixed, hcomp, hc, List.map_nil]
      cases e.io with
      | fail er => exact .inl ⟨er, by simp [LBuf.sysRead]⟩
      | xfer k =>
        have : c.buf.mem.length - c.buf.used ≠ 0 := by rw [h.mem, h.used]; simp
        simp only [LBuf.sysRead, this, if_false, if_true]
        cases c.closed
        · exact .inl ⟨.EAGAIN, by simp⟩
        · exact .inr (by simp [hz, h.used])
    rcases hr with ⟨er, hr⟩ | hr
    · simp only [hr, List.length_map, Nat.sub_self, List.drop_zero]
      split
      · exact ⟨_, rfl, rfl, .inr ⟨h, hc⟩⟩
      · exact ⟨_, rfl, rfl, .inl rfl⟩
    · simp only [hr, List.length_map, Nat.sub_self, List.drop_zero, if_true, onEof, h.mode]
      exact ⟨_, rfl, rfl, .inl rfl⟩

theorem run_idle {sd : Side} (l : List REv) : ∀ c : Chan, Idle c → c.cells = [] → ∃ c', run sd c l = some c' ∧ c'.notes = c.notes := by
  induction l with
  | nil => intro c _ _; exact ⟨c, rfl, rfl⟩
  | cons e l ih =>
    intro c h hc
    obtain ⟨c1, h1, h2, h3⟩ := step_idle (sd := sd) h hc e
    simp only [run, h1, Option.bind_some]
    rcases h3 with h3 | ⟨h3, h4⟩
    · exact ⟨c1, run_dead h3 _, h2⟩
    · obtain ⟨c', h5, h6⟩ := ih c1 h3 h4
      exact ⟨c', h5, by rw [h6, h2]⟩

/-- No event does harm that is not an error reported by the system. -/
def Calm (e : REv) : Prop :=
  e.err = false ∧ (∀ er, e.io = .fail er → er = .EAGAIN ∨ er = .EINTR) ∧ (∀ er, IoEv.fail er ∈ e.anc → er = .EAGAIN ∨ er = .EINTR) ∧
    ∃ k, IoEv.xfer k ∈ e.anc

/-- Receiving the messages and nothing else. -/
theorem run_exact {sd : Side} (l : List REv) : ∀ (todo : List Msg) (c : Chan), Rel sd todo [] c →
    (∀ m ∈ todo, m.bytes.length + 8 < 2 ^ 32) →
    ∃ c', run sd c l = some c' ∧ (∃ pre, pre <+: todo ∧ c'.notes = c.notes ++ pre.flatMap (noteOf sd)) ∧
      ((∀ e ∈ l, Calm e) → c.cells.length ≤ (l.filter fun e => e.io.moves).length → c'.notes = c.notes ++ todo.flatMap (noteOf sd)) := by
  induction l with
  | nil =>
    intro todo c R hl
    refine ⟨c, rfl, ⟨[], List.nil_prefix, by simp⟩, fun _ hlen => ?_⟩
    cases todo with
    | nil => simp
    | cons m t =>
      obtain ⟨M, -⟩ := R
      have h1 := M.less
      have h2 : c.cells.length = 0 := by simpa using hlen
      rw [M.cells] at h2
      simp [wire, plainCells] at h2
      omega
  | cons e l ih =>
    intro todo c R hl
    cases todo with
    | nil =>
      obtain ⟨c', h1, h2⟩ := run_idle (sd := sd) (e :: l) c R.1 R.2
      exact ⟨c', h1, ⟨[], List.nil_prefix, by simp [h2]⟩, fun _ _ => by simp [h2]⟩
    | cons m t =>
      obtain ⟨M, ha⟩ := R
      have hm := hl m (List.mem_cons_self ..)
      have hl' : ∀ m ∈ t, m.bytes.length + 8 < 2 ^ 32 := fun q hq => hl q (List.mem_cons_of_mem _ hq)
      obtain ⟨c1, h1, hcl, hd, hcalm⟩ := step_spec M ha hm e
      simp only [run, h1, Option.bind_some]
      have hcl0 : c.cells.length = (wire sd.socket m ++ (wires sd.socket t ++ [])).length - c.buf.used := by
        rw [M.cells, List.length_drop]
      have hwl : (wire sd.socket m ++ (wires sd.socket t ++ [])).length =
          (frame (payload m)).length + (extCells sd.socket m).length + (wires sd.socket t).length := by
        simp [wire, plainCells, Nat.add_assoc]
      have hless := M.less
      rcases hd with ⟨d1, d2⟩ | ⟨d1, d2, d3, d4⟩ | ⟨d1, d2, d3⟩
      · refine ⟨c1, run_dead d1 _, ⟨[], List.nil_prefix, by simp [d2]⟩, fun hca _ => ?_⟩
        obtain ⟨a1, a2, a3, a4⟩ := hca e (List.mem_cons_self ..)
        have := (hcalm a1 a2 a3 a4).1
        rw [d1] at this; cases this
      · obtain ⟨c', r1, r2, r3⟩ := ih (m :: t) c1 ⟨d3, d1⟩ hl
        rw [d2] at r2 r3
        refine ⟨c', r1, r2, fun hca hlen => r3 (fun e he => hca e (List.mem_cons_of_mem _ he)) ?_⟩
        obtain ⟨a1, a2, a3, a4⟩ := hca e (List.mem_cons_self ..)
        have hcl1 : c1.cells.length = (wire sd.socket m ++ (wires sd.socket t ++ [])).length - c1.buf.used := by
          rw [d3.cells, List.length_drop]
        have hless1 := d3.less
        cases hmv : e.io.moves with
        | false => rw [List.filter_cons_of_neg (by simp [hmv])] at hlen; omega
        | true =>
          rw [List.filter_cons_of_pos (by simp [hmv]), List.length_cons] at hlen
          rcases (hcalm a1 a2 a3 a4).2 hmv with ⟨-, h⟩ | ⟨-, h, h'⟩
          · omega
          · have hu := h'.used
            have := d3.cells
            rw [h, hu, List.drop_zero] at this
            have := congrArg List.length this
            rw [hwl] at this
            simp only [List.append_nil] at this
            omega
      · obtain ⟨c', r1, ⟨pre, p1, p2⟩, r3⟩ := ih t c1 (Rel.of_idle d3 d2 hl') hl'
        refine ⟨c', r1, ⟨m :: pre, (List.prefix_cons_inj m).mpr p1, by rw [p2, d1, List.flatMap_cons, List.append_assoc]⟩, ?_⟩
        intro hca hlen
        rw [r3 (fun e he => hca e (List.mem_cons_of_mem _ he)) ?_, d1, List.flatMap_cons, List.append_assoc]
        rw [d2, List.append_nil]
        have hfr := LBuf.frame_length (payload m)
        have : (l.filter fun e => e.io.moves).length + 1 ≥ ((e :: l).filter fun e => e.io.moves).length := by
          rw [List.filter_cons]; split <;> simp
        rw [hwl] at hcl0
        omega

/-! ### External workers -/

/-- receiving what an external worker writes -/
structure PlainRel (total : List UInt8) (c : Chan) : Prop where
  inv : Inv c.buf
  mode : c.buf.mode = .plain
  step : c.buf.step ≠ 0
  limit : c.buf.limit = 0
  mark : c.buf.markSet = false
  data : LBuf.bytes c.buf ++ c.cells.map Prod.fst = total

theorem readPlain_fields (b : Buf) (s : Stream) (ev : IoEv) (fresh) :
    (LBuf.readPlain b s ev fresh).1.markSet = b.markSet ∧ (LBuf.readPlain b s ev fresh).1.limit = b.limit := by
  unfold LBuf.readPlain
  split
  · exact ⟨rfl, rfl⟩
  · next b1 hg =>
    have h1 : b1.markSet = b.markSet ∧ b1.limit = b.limit := by
      unfold LBuf.growPlain at hg
      split at hg
      · obtain ⟨-, -, -, h4, -, h5, -⟩ := LBuf.realloc_ok hg; exact ⟨h5, h4⟩
      · cases hg; exact ⟨rfl, rfl⟩
    unfold LBuf.readInto
    split <;> exact h1

/-- a plain read fails only if the system call does -/
theorem readPlain_err {b : Buf} {s : Stream} {ev : IoEv} {fresh} {er : Errno} (hs : b.step ≠ 0) (hl : b.limit = 0)
    (h : (LBuf.readPlain b s ev fresh).2.2 = .error er) : ev = .fail er ∨ (er = .EAGAIN ∧ s.data = [] ∧ s.closed = false) := by
  unfold LBuf.readPlain at h
  split at h
  · next e hg =>
    unfold LBuf.growPlain at hg
    split at hg
    · rcases LBuf.realloc_err hg with ⟨-, -, h, -⟩ | ⟨-, h, -⟩
      · exact absurd h hs
      · exact absurd hl h
    · cases hg
  · unfold LBuf.readInto at h
    split at h
    · next e he =>
      cases ev with
      | fail e' => simp only [LBuf.sysRead, Except.error.injEq] at he; simp only [Except.error.injEq] at h; rw [he, h]; exact .inl rfl
      | xfer k =>
        refine .inr ?_
        simp only [LBuf.sysRead] at he
        split at he
        · cases he
        · split at he
          · split at he
            · cases he
            · next hd hcl =>
              simp only [Except.error.injEq] at he h
              exact ⟨by rw [← h, ← he], hd, by simpa using hcl⟩
          · cases he
    · cases h

theorem plain_step {sd : Side} {total : List UInt8} {c : Chan} (P : PlainRel total c) (ha : c.alive = true) (e : REv) :
    ∃ c', step sd c e = some c' ∧ c'.closed = c.closed ∧
      ((c'.alive = false ∧ c'.notes = c.notes) ∨
       (c'.alive = false ∧ c'.notes = c.notes ++ [.call ⟨total ++ sd.sfx, none⟩] ∧ c.closed = true) ∨
       (c'.alive = true ∧ c'.notes = c.notes ∧ PlainRel total c' ∧ c'.cells.length ≤ c.cells.length)) ∧
      (e.err = false → (∀ er, e.io = .fail er → er = .EAGAIN ∨ er = .EINTR) →
        (c'.alive = false → c'.notes = c.notes ++ [.call ⟨total ++ sd.sfx, none⟩]) ∧
        (e.io.moves = true → c.closed = true → c'.alive = true → c'.cells.length < c.cells.length)) := by
  unfold step
  rw [if_neg (by simp [ha])]
  cases he : e.err with
  | true =>
    simp only [if_true]
    exact ⟨_, rfl, rfl, .inl ⟨rfl, rfl⟩, fun h => by cases h⟩
  | false =>
    rw [if_neg (by simp)]
    have hread : LBuf.read c.buf ⟨c.cells.map Prod.fst, c.closed⟩ e.io e.fresh =
        LBuf.readPlain c.buf ⟨c.cells.map Prod.fst, c.closed⟩ e.io e.fresh := by unfold LBuf.read; rw [P.mode]
    rw [hread]
    obtain ⟨k, k1, k2, k3, k4, k5, k6, k7, k8, k9⟩ :=
      Sid.Props.readPlain_spec (b := c.buf) (s := ⟨c.cells.map Prod.fst, c.closed⟩) (ev := e.io) (fresh := e.fresh) P.inv P.mode
    obtain ⟨f1, f2⟩ := readPlain_fields c.buf ⟨c.cells.map Prod.fst, c.closed⟩ e.io e.fresh
    have herr : ∀ er, (LBuf.readPlain c.buf ⟨c.cells.map Prod.fst, c.closed⟩ e.io e.fresh).2.2 = .error er → _ := fun er h =>
      readPlain_err P.step P.limit h
    generalize LBuf.readPlain c.buf ⟨c.cells.map Prod.fst, c.closed⟩ e.io e.fresh = q at *
    obtain ⟨b', s', r⟩ := q
    simp only at k1 k2 k3 k4 k5 k6 k7 k8 k9 f1 f2 herr
    subst k2
    simp only [List.length_map] at k3
    have hlen : c.cells.length - ((c.cells.map Prod.fst).drop k).length = k := by simp; omega
    have P' : PlainRel total { c with buf := b', cells := c.cells.drop k } := by
      refine ⟨k6, k7, by rw [show ({ c with buf := b', cells := c.cells.drop k } : Chan).buf = b' from rfl, k8]; exact P.step,
        by simp only [f2, P.limit], by simp only [f1, P.mark], ?_⟩
      simp only [k1, List.map_drop, List.append_assoc, List.take_append_drop, P.data]
    cases r with
    | error er =>
      have hk := k5 er rfl
      subst hk
      simp only [hlen]
      by_cases hE : er = .EAGAIN ∨ er = .EINTR
      · simp only [hE, if_true]
        refine ⟨_, rfl, rfl, .inr (.inr ⟨ha, rfl, P', by simp⟩), fun _ h => ⟨fun h => ?_, fun hmv hcl _ => ?_⟩⟩
        · exact absurd (ha.symm.trans h) (by simp)
        · rcases herr er rfl with h' | ⟨-, -, h'⟩
          · rw [h'] at hmv; cases hmv
          · exact absurd (hcl.symm.trans h') (by simp)
      · simp only [hE, if_false]
        refine ⟨_, rfl, rfl, .inl ⟨rfl, rfl⟩, fun _ h => ?_⟩
        rcases herr er rfl with h' | ⟨h', -⟩
        · exact absurd (h er h') hE
        · exact absurd (.inl h') hE
    | ok n =>
      have hk := k4 n rfl
      subst hk
      simp only [hlen]
      by_cases hn : n = 0
      · subst hn
        obtain ⟨z1, z2⟩ := k9 rfl P.step
        simp only [List.map_eq_nil_iff] at z1
        simp only [if_true, onEof, k7]
        obtain ⟨b2, a1, a2, a3, a4, a5, a6, a7, a8⟩ := addSuffix_ok (sd := sd) (fresh := e.fresh2) k6 (by rw [f1]; exact P.mark)
          (by rw [k8]; exact P.step) (by rw [f2]; exact P.limit)
        have hb : LBuf.bytes b' = total := by rw [← P.data, k1, z1]; simp
        rw [hb] at a8
        obtain ⟨b3, g1, g2, g3, -⟩ := getData_all a2 a8
        simp only [a1, g1, handle, true_or, if_true, Option.map_some]
        exact ⟨_, rfl, rfl, .inr (.inl ⟨rfl, rfl, z2⟩), fun _ _ => ⟨fun _ => rfl, fun _ _ h => by cases h⟩⟩
      · simp only [hn, if_false, k7]
        refine ⟨_, rfl, rfl, .inr (.inr ⟨ha, rfl, P', by simp⟩), fun _ _ => ⟨fun h => ?_, fun _ _ _ => ?_⟩⟩
        · exact absurd (ha.symm.trans h) (by simp)
        · simp only [List.length_drop]; omega

theorem plain_run {sd : Side} {total : List UInt8} (l : List REv) : ∀ c : Chan, PlainRel total c → c.alive = true →
    ∃ c', run sd c l = some c' ∧
      (c'.notes = c.notes ∨ (c'.notes = c.notes ++ [.call ⟨total ++ sd.sfx, none⟩] ∧ c.closed = true)) ∧
      ((∀ e ∈ l, Calm e) → c.closed = true → c.cells.length + 1 ≤ (l.filter fun e => e.io.moves).length →
        c'.notes = c.notes ++ [.call ⟨total ++ sd.sfx, none⟩]) := by
  induction l with
  | nil => intro c P ha; exact ⟨c, rfl, .inl rfl, fun _ _ h => by simp at h⟩
  | cons e l ih =>
    intro c P ha
    obtain ⟨c1, h1, hcl, hd, hc⟩ := plain_step (sd := sd) P ha e
    simp only [run, h1, Option.bind_some]
    rcases hd with ⟨d1, d2⟩ | ⟨d1, d2, d3⟩ | ⟨d1, d2, d3, d4⟩
    · refine ⟨c1, run_dead d1 _, .inl d2, fun hca _ _ => ?_⟩
      obtain ⟨a1, a2, -⟩ := hca e (List.mem_cons_self ..)
      exact (hc a1 a2).1 d1
    · exact ⟨c1, run_dead d1 _, .inr ⟨d2, d3⟩, fun _ _ _ => d2⟩
    · obtain ⟨c', r1, r2, r3⟩ := ih c1 d3 d1
      rw [d2, hcl] at r2
      rw [d2, hcl] at r3
      refine ⟨c', r1, r2, fun hca hclo hlen => r3 (fun e he => hca e (List.mem_cons_of_mem _ he)) hclo ?_⟩
      obtain ⟨a1, a2, -⟩ := hca e (List.mem_cons_self ..)
      cases hmv : e.io.moves with
      | false => rw [List.filter_cons_of_neg (by simp [hmv])] at hlen; omega
      | true =>
        rw [List.filter_cons_of_pos (by simp [hmv]), List.length_cons] at hlen
        have := (hc a1 a2).2 hmv hclo d1
        omega

end Sid.Chan
