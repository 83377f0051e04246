import Verif.Model.BufIo
import Verif.Spec.Frame
import Verif.Proof.LinearBuf

namespace Sid.LBuf
open Sid.Spec.Buf (Op Ret)
open Sid.Spec.Frame

theorem le32_length (n : Nat) : (le32 n).length = 4 := rfl

theorem rd32_le32 (n : Nat) (h : n < 2 ^ 32) (rest : List UInt8) : rd32 (le32 n ++ rest) = n := by
  simp only [le32, rd32, List.cons_append, List.nil_append, UInt8.toNat_ofNat']
  omega

/-! ### Writing -/

/-- What goes over the wire when the buffer is written. -/
def image (b : Buf) : List UInt8 := (updatePrefix b).mem.take b.used

theorem updatePrefix_fields (b : Buf) : (updatePrefix b).used = b.used ∧ (updatePrefix b).mode = b.mode := by
  unfold updatePrefix; split <;> exact ⟨rfl, rfl⟩

theorem store_store (mem : List UInt8) (p : List UInt8) :
    store (store mem 0 p) 0 p = store mem 0 p := by
  simp [store]

theorem updatePrefix_idem (b : Buf) : updatePrefix (updatePrefix b) = updatePrefix b := by
  rcases b with ⟨mode, sz, st, l, mem, u, ms, mp, g⟩
  cases mode
  · rfl
  · simp only [updatePrefix, store_store]

theorem updatePrefix_inv (b : Buf) (I : Inv b) : Inv (updatePrefix b) := by
  have hr := I.room
  have hl := I.le
  obtain ⟨h1, h2⟩ := updatePrefix_fields b
  have h3 : (updatePrefix b).mem.length = b.mem.length := by
    unfold updatePrefix
    cases hm : b.mode
    · rfl
    · rw [hm] at hr
      exact store_length (by simpa [pfxLen] using hr)
  exact ⟨by rw [h1, h3]; exact hl, by rw [h2, h3]; exact hr, by rw [h1, h2]; exact I.ge⟩

theorem image_length (b : Buf) (I : Inv b) : (image b).length = b.used := by
  have := (updatePrefix_inv b I).le
  rw [(updatePrefix_fields b).1] at this
  simp [image]; omega

/-- The wire image: the content itself in plain mode, a frame around it in size-prefix mode. -/
theorem image_eq (b : Buf) (I : Inv b) :
    image b = match b.mode with
      | .plain => bytes b
      | .prefixed => if b.used = 0 then [] else frame (bytes b) := by
  unfold image updatePrefix
  cases hm : b.mode
  · simp [bytes, hm, pfxLen]
  · have hr := I.room
    have hl := I.le
    have hg := I.ge
    rw [hm] at hr hg
    simp only [pfxLen] at hr hg
    dsimp only
    split
    · rename_i h0; simp [h0]
    · rename_i h0
      have hg := hg.resolve_left h0
      have hlen : (bytes b).length + 4 = b.used := by simp [bytes, hm, pfxLen]; omega
      unfold frame
      rw [hlen]
      simp only [store, List.take_zero, List.nil_append, bytes, hm, pfxLen, le32, List.length_cons, List.length_nil]
      obtain ⟨n, hn⟩ : ∃ n, b.used = n + 4 := ⟨b.used - 4, by omega⟩
      rw [hn]
      simp only [List.cons_append, List.nil_append, List.take_succ_cons, Nat.zero_add, Nat.reduceAdd]
      rw [List.drop_take]
      simp

theorem writeAll_spec (evs : List IoEv) : ∀ (b : Buf) (pos : Nat) (out : List UInt8), Inv b → pos ≤ b.used →
    out = (image b).take pos →
    (∀ o, writeAll b pos out evs = .done o → IoEv.fail .ENODATA ∉ evs → o = image b) ∧
    (∀ e o, writeAll b pos out evs = .failed e o → IoEv.fail e ∈ evs ∧ e ≠ .EAGAIN ∧ e ≠ .EINTR ∧ ∃ k, o = (image b).take k) ∧
    (∀ o, writeAll b pos out evs = .pending o → ∃ k < b.used, o = (image b).take k) := by
  induction evs with
  | nil =>
    intro b pos out I hp ho
    have hil := image_length b I
    unfold writeAll
    by_cases h : pos = b.used
    · simp only [if_pos h]
      refine ⟨?_, by simp, by simp⟩
      intro o h1 _
      cases h1
      rw [ho, h, ← hil, List.take_length]
    · rw [if_neg h, if_neg (by omega)]
      refine ⟨by simp, by simp, ?_⟩
      intro o h1
      cases h1
      exact ⟨pos, by omega, ho⟩
  | cons ev es ih =>
    intro b pos out I hp ho
    have hil := image_length b I
    unfold writeAll
    by_cases h : pos = b.used
    · simp only [if_pos h]
      refine ⟨?_, by simp, by simp⟩
      intro o h1 _
      cases h1
      rw [ho, h, ← hil, List.take_length]
    · rw [if_neg h, if_neg (by omega)]
      have hu := (updatePrefix_fields b).1
      have I' := updatePrefix_inv b I
      have hi' : image (updatePrefix b) = image b := by
        unfold image
        rw [updatePrefix_idem b, hu]
      cases ev with
      | fail e =>
        dsimp only
        split
        · rename_i he
          refine ⟨?_, by simp, by simp⟩
          intro o _ hno
          exact absurd (by rw [he]; simp) hno
        · split
          · obtain ⟨a1, a2, a3⟩ := ih (updatePrefix b) pos out I' (by omega) (by rw [hi']; exact ho)
            rw [hi', hu] at *
            refine ⟨fun o h1 hno => a1 o h1 (fun hm => hno (List.mem_cons_of_mem _ hm)), ?_, a3⟩
            intro e' o h1
            obtain ⟨b1, b2⟩ := a2 e' o h1
            exact ⟨List.mem_cons_of_mem _ b1, b2⟩
          · rename_i he1 he2
            refine ⟨by simp, ?_, by simp⟩
            intro e' o h1
            cases h1
            exact ⟨by simp, fun hc => he2 (.inl hc), fun hc => he2 (.inr hc), pos, ho⟩
      | xfer k =>
        dsimp only
        have hbs : (updatePrefix b).mem.take (updatePrefix b).used = image b := by rw [hu]; rfl
        rw [hbs]
        have hlen : (((image b).drop pos).take k).length = min k (b.used - pos) := by
          rw [List.length_take, List.length_drop, hil]
        obtain ⟨a1, a2, a3⟩ := ih (updatePrefix b) (pos + (((image b).drop pos).take k).length)
          (out ++ ((image b).drop pos).take k) I' (by rw [hlen]; omega)
          (by
            rw [hi', ho, hlen]
            rw [List.take_add]
            congr 1
            rw [List.take_eq_take_iff]
            simp [hil])
        rw [hi', hu] at *
        refine ⟨fun o h1 hno => a1 o h1 (fun hm => hno (List.mem_cons_of_mem _ hm)), ?_, a3⟩
        intro e' o h1
        obtain ⟨b1, b2⟩ := a2 e' o h1
        exact ⟨List.mem_cons_of_mem _ b1, b2⟩

/-- With enough productive events and no hard error the call returns 0. -/
theorem writeAll_terminates (evs : List IoEv) : ∀ (b : Buf) (pos : Nat) (out : List UInt8), Inv b → pos ≤ b.used →
    (∀ e, IoEv.fail e ∈ evs → e = .EAGAIN ∨ e = .EINTR) →
    b.used - pos ≤ (evs.filter (fun ev => match ev with | .xfer k => decide (0 < k) | .fail _ => false)).length →
    ∃ o, writeAll b pos out evs = .done o := by
  induction evs with
  | nil =>
    intro b pos out I hp _ hn
    unfold writeAll
    simp at hn
    rw [if_pos (by omega)]
    exact ⟨_, rfl⟩
  | cons ev es ih =>
    intro b pos out I hp he hn
    unfold writeAll
    by_cases h : pos = b.used
    · rw [if_pos h]; exact ⟨_, rfl⟩
    · rw [if_neg h, if_neg (by omega)]
      have hu := (updatePrefix_fields b).1
      have I' := updatePrefix_inv b I
      cases ev with
      | fail e =>
        have h1 := he e (by simp)
        dsimp only
        rw [if_neg (by rintro rfl; rcases h1 with h | h <;> cases h), if_pos h1]
        apply ih _ _ _ I' (by omega) (fun e' hm => he e' (List.mem_cons_of_mem _ hm))
        rw [hu]
        simpa using hn
      | xfer k =>
        dsimp only
        have hil := image_length b I
        have hbs : (updatePrefix b).mem.take (updatePrefix b).used = image b := by rw [hu]; rfl
        rw [hbs]
        have hlen : (((image b).drop pos).take k).length = min k (b.used - pos) := by
          rw [List.length_take, List.length_drop, hil]
        apply ih _ _ _ I' (by rw [hlen]; omega) (fun e' hm => he e' (List.mem_cons_of_mem _ hm))
        rw [hu, hlen]
        simp only [List.filter_cons] at hn
        by_cases hk : 0 < k
        · simp [hk] at hn
          omega
        · simp [hk] at hn
          omega

/-! ### Reading a frame -/

/-- The reader has consumed the first `b.used` bytes of frame `f`; `rest` follows it on the stream. -/
structure RInv (f rest : List UInt8) (b : Buf) (s : Stream) : Prop where
  mode : b.mode = .prefixed
  step : b.step = 1
  lim : b.limit = 0 ∨ f.length ≤ b.limit
  usedF : b.used ≤ f.length
  usedM : b.used ≤ b.mem.length
  pre : b.mem.take b.used = f.take b.used
  str : s.data = f.drop b.used ++ rest
  small : b.used < 4 → 4 ≤ b.mem.length ∧ b.mem.length ≤ f.length
  big : 4 ≤ b.used → b.mem.length = f.length
  mark : b.markSet = false

theorem frame_length (p : List UInt8) : (frame p).length = p.length + 4 := by simp [frame, le32_length]; omega

theorem rd32_take4 (l : List UInt8) (h : 4 ≤ l.length) : rd32 l = rd32 (l.take 4) := by
  match l, h with
  | _ :: _ :: _ :: _ :: _, _ => rfl

theorem take4_of_take {l f : List UInt8} {n : Nat} (h : l.take n = f.take n) (hn : 4 ≤ n) : l.take 4 = f.take 4 := by
  have := congrArg (List.take 4) h
  simpa [List.take_take, Nat.min_eq_left hn] using this

theorem expected_frame {p : List UInt8} {b : Buf} (hp : p.length + 4 < 2 ^ 32)
    (h : b.mem.take b.used = (frame p).take b.used) (h2 : b.used ≤ b.mem.length) :
    expected b = if 4 ≤ b.used then p.length + 4 else 0 := by
  unfold expected
  split
  · rename_i hu
    rw [rd32_take4 _ (by omega), take4_of_take h hu]
    have : (frame p).take 4 = le32 (p.length + 4) := by
      unfold frame
      rw [List.take_append_of_le_length (by simp [le32_length])]
      rfl
    rw [this]
    simpa using rd32_le32 (p.length + 4) hp []
  · rfl

theorem isComplete_frame {p rest : List UInt8} {b : Buf} {s : Stream} (hp : p.length + 4 < 2 ^ 32)
    (R : RInv (frame p) rest b s) : isComplete b = decide (b.used = (frame p).length) := by
  unfold isComplete
  rw [R.mode]
  simp only
  rw [expected_frame hp R.pre R.usedM, frame_length]
  congr 1
  apply propext
  constructor
  · rintro ⟨h0, h1⟩
    split at h1 <;> omega
  · intro h
    rw [if_pos (by omega)]
    omega

theorem realloc_step1 {b : Buf} {n : Nat} {fresh} (hs : b.step = 1) (hl : b.limit = 0 ∨ n ≤ b.limit)
    (hle : b.mem.length ≤ n) :
    ∃ b', realloc b n false fresh = .ok b' ∧ b'.mem.length = n := by
  unfold realloc
  by_cases h : b.mem.length ≥ n
  · exact ⟨b, by simp [h], by omega⟩
  · refine ⟨{ b with mem := resize b.mem n fresh, gen := b.gen + 1 }, ?_, resize_length _ _ _⟩
    have hno : ¬ (b.limit ≠ 0 ∧ n > b.limit) := by rintro ⟨h1, h2⟩; rcases hl with h3 | h3 <;> omega
    have hr : roundUp n (if (false : Bool) = true then 1 else b.step) = n := by rw [hs]; exact roundUp_one n
    rw [hr, if_neg hno, if_neg (by simp [h]), if_neg (by simp [hs])]

/-- One read call on an incomplete frame: either nothing happens (error from the kernel), or some bytes of the frame
    move from the stream into the buffer. -/
theorem read_step {p rest : List UInt8} {b : Buf} {s : Stream} (hp : p.length + 4 < 2 ^ 32)
    (R : RInv (frame p) rest b s) (hinc : b.used < (frame p).length) (ev : IoEv) (fresh : Nat → UInt8) :
    (∃ e, ev = .fail e ∧ read b s ev fresh = (b, s, .error e)) ∨
    (∃ k b' s' n, ev = .xfer k ∧ read b s ev fresh = (b', s', .ok n) ∧ 0 < n ∧ b'.used = b.used + n ∧
      RInv (frame p) rest b' s' ∧ s'.closed = s.closed ∧ b'.size = b.size ∧ b'.limit = b.limit) := by
  have hfl := frame_length p
  have hnc : isComplete b = false := by rw [isComplete_frame hp R]; simp; omega
  unfold read
  rw [R.mode]
  simp only [readPrefixed, hnc]
  cases ev with
  | fail e => exact .inl ⟨e, rfl, by simp [sysRead]⟩
  | xfer k =>
    right
    have hreq : b.mem.length - b.used ≠ 0 := by
      by_cases h4 : b.used < 4
      · have := (R.small h4).1; omega
      · have := R.big (by omega); omega
    have hreqle : b.mem.length ≤ (frame p).length := by
      by_cases h4 : b.used < 4
      · exact (R.small h4).2
      · have := R.big (by omega); omega
    have hne : s.data ≠ [] := by
      rw [R.str]
      intro hc
      have := congrArg List.length hc
      simp at this
      omega
    simp only [sysRead, hreq, hne, if_false]
    generalize hm : max 1 (min k (b.mem.length - b.used)) = m
    have hm1 : 1 ≤ m := by omega
    have hm2 : m ≤ b.mem.length - b.used := by omega
    have htk : s.data.take m = ((frame p).drop b.used).take m := by
      rw [R.str, List.take_append_of_le_length]
      simp; omega
    have hlen : (s.data.take m).length = m := by
      rw [htk]; simp; omega
    rw [hlen]
    rw [if_neg (by simp), if_neg (by omega)]
    -- the buffer after storing the bytes
    have hst : (store b.mem b.used (s.data.take m)).take (b.used + m) = (frame p).take (b.used + m) := by
      have h1 := store_take_after (mem := b.mem) (off := b.used) (bs := s.data.take m) R.usedM
      rw [hlen] at h1
      rw [h1, R.pre, htk, List.take_add]
    have hsl : (store b.mem b.used (s.data.take m)).length = b.mem.length := store_length (by rw [hlen]; omega)
    have hex := expected_frame (b := { b with mem := store b.mem b.used (s.data.take m), used := b.used + m }) hp hst
      (by show b.used + m ≤ (store b.mem b.used (s.data.take m)).length; rw [hsl]; omega)
    have hstr : s.data.drop m = (frame p).drop (b.used + m) ++ rest := by
      rw [R.str, List.drop_append_of_le_length (by simp; omega), List.drop_drop]
    by_cases h4 : 4 ≤ b.used + m
    · simp only [h4, if_true] at hex
      simp only [hex]
      rw [if_pos (by omega), if_neg (by omega)]
      by_cases hb4 : b.used < 4
      · rw [if_pos hb4]
        obtain ⟨b2, hb2, hb2l⟩ := realloc_step1
          (b := { b with mem := store b.mem b.used (s.data.take m), used := b.used + m }) (n := p.length + 4)
          (fresh := fresh) R.step (by rw [hfl] at *; exact R.lim) (by
            show (store b.mem b.used (s.data.take m)).length ≤ _
            rw [hsl]; omega)
        rw [hb2]
        obtain ⟨e1, e2, e3, e4, e5, e6, e7, e8, e9⟩ := realloc_ok hb2
        refine ⟨k, b2, _, m, rfl, rfl, by omega, e5, ⟨e1.trans R.mode, e3.trans R.step, by rw [e4]; exact R.lim,
          ?_, ?_, ?_, ?_, ?_, ?_, e6.trans R.mark⟩, rfl, e2, e4⟩
        · rw [e5]; show b.used + m ≤ _; omega
        · rw [e5, hb2l]; show b.used + m ≤ _; omega
        · rw [e5]
          show b2.mem.take (b.used + m) = _
          rw [e9 _ (by omega) (by show _ ≤ (store _ _ _).length; rw [hsl]; omega)]
          exact hst
        · rw [e5]; exact hstr
        · rw [e5]; intro hc; exact absurd hc (by show ¬ (b.used + m < 4); omega)
        · intro _; rw [hb2l, hfl]
      · rw [if_neg hb4]
        refine ⟨k, _, _, m, rfl, rfl, by omega, rfl, ⟨R.mode, R.step, R.lim, ?_, ?_, hst, hstr, ?_, ?_, R.mark⟩, rfl, rfl, rfl⟩
        · show b.used + m ≤ _; omega
        · show b.used + m ≤ (store _ _ _).length; rw [hsl]; omega
        · intro hc; exact absurd hc (by show ¬ (b.used + m < 4); omega)
        · intro _; show (store _ _ _).length = _; rw [hsl]; exact R.big (by omega)
    · simp only [h4, if_false] at hex
      simp only [hex]
      have hs4 := R.small (by omega)
      refine ⟨k, _, _, m, rfl, rfl, by omega, rfl, ⟨R.mode, R.step, R.lim, ?_, ?_, hst, hstr, ?_, ?_, R.mark⟩, rfl, rfl, rfl⟩
      · show b.used + m ≤ _; omega
      · show b.used + m ≤ (store _ _ _).length; rw [hsl]; omega
      · intro _; show 4 ≤ (store _ _ _).length ∧ (store _ _ _).length ≤ _; rw [hsl]; exact hs4
      · intro hc; exact absurd hc (by show ¬ (4 ≤ b.used + m); omega)

/-- A freshly created or reset buffer is ready for any frame that is at least as big as its initial space. -/
theorem rinv_init {p rest : List UInt8} {b : Buf} {s : Stream} (hm : b.mode = .prefixed) (hs : b.step = 1)
    (hl : b.limit = 0 ∨ p.length + 4 ≤ b.limit) (hu : b.used = 0) (hmem : b.mem.length = b.size + 4)
    (hsz : b.size ≤ p.length) (hd : s.data = frame p ++ rest) (hmk : b.markSet = false) : RInv (frame p) rest b s := by
  have := frame_length p
  refine ⟨hm, hs, by rw [this]; exact hl, by omega, by omega, by simp [hu], by simp [hu, hd], ?_, ?_, hmk⟩
  · intro _; omega
  · intro h; omega

theorem recvLoop_spec {p rest : List UInt8} (hp : p.length + 4 < 2 ^ 32) (evs : List (IoEv × (Nat → UInt8))) :
    ∀ (b : Buf) (s : Stream), RInv (frame p) rest b s → b.used < (frame p).length →
    (∃ b' s', recvLoop b s evs = .complete b' s' ∧ RInv (frame p) rest b' s' ∧ b'.used = (frame p).length) ∨
    (∃ b' s', recvLoop b s evs = .pending b' s' ∧ RInv (frame p) rest b' s' ∧ b'.used < (frame p).length) ∨
    (∃ e b' s', recvLoop b s evs = .failed e b' s' ∧ e ≠ .EAGAIN ∧ e ≠ .EINTR ∧ .fail e ∈ evs.map Prod.fst) := by
  induction evs with
  | nil => intro b s R h; exact .inr (.inl ⟨b, s, rfl, R, h⟩)
  | cons ev es ih =>
    obtain ⟨ev, fresh⟩ := ev
    intro b s R h
    rcases read_step hp R h ev fresh with ⟨e, rfl, hr⟩ | ⟨k, b', s', n, rfl, hr, hn, hu, R', -⟩
    · by_cases he : e = .EAGAIN ∨ e = .EINTR
      · have e1 : recvLoop b s ((.fail e, fresh) :: es) = recvLoop b s es := by simp [recvLoop, hr, he]
        rw [e1]
        rcases ih b s R h with h1 | h1 | ⟨e', b', s', h1, h2, h3, h4⟩
        · exact .inl h1
        · exact .inr (.inl h1)
        · exact .inr (.inr ⟨e', b', s', h1, h2, h3, by simp only [List.map_cons]; exact List.mem_cons_of_mem _ h4⟩)
      · refine .inr (.inr ⟨e, b, s, by simp [recvLoop, hr, he], fun hc => he (.inl hc), fun hc => he (.inr hc), by simp⟩)
    · have hcomp := isComplete_frame hp R'
      by_cases hc : b'.used = (frame p).length
      · refine .inl ⟨b', s', ?_, R', hc⟩
        simp [recvLoop, hr, hn, hcomp, hc]
      · have e1 : recvLoop b s ((.xfer k, fresh) :: es) = recvLoop b' s' es := by simp [recvLoop, hr, hn, hcomp, hc]
        rw [e1]
        have hlt : b'.used < (frame p).length := by have := R'.usedF; omega
        rcases ih b' s' R' hlt with h1 | h1 | ⟨e', b'', s'', h1, h2, h3, h4⟩
        · exact .inl h1
        · exact .inr (.inl h1)
        · exact .inr (.inr ⟨e', b'', s'', h1, h2, h3, by simp only [List.map_cons]; exact List.mem_cons_of_mem _ h4⟩)

/-- Enough productive reads without a hard error complete the message. -/
theorem recvLoop_completes {p rest : List UInt8} (hp : p.length + 4 < 2 ^ 32) (evs : List (IoEv × (Nat → UInt8))) :
    ∀ (b : Buf) (s : Stream), RInv (frame p) rest b s → b.used < (frame p).length →
    (∀ e, .fail e ∈ evs.map Prod.fst → e = .EAGAIN ∨ e = .EINTR) →
    (frame p).length - b.used ≤ ((evs.map Prod.fst).filter IoEv.moves).length →
    ∃ b' s', recvLoop b s evs = .complete b' s' := by
  induction evs with
  | nil => intro b s R h _ hn; simp at hn; omega
  | cons ev es ih =>
    obtain ⟨ev, fresh⟩ := ev
    intro b s R h he hn
    rcases read_step hp R h ev fresh with ⟨e, rfl, hr⟩ | ⟨k, b', s', n, rfl, hr, hnn, hu, R', -⟩
    · have h1 := he e (by simp)
      have e1 : recvLoop b s ((.fail e, fresh) :: es) = recvLoop b s es := by simp [recvLoop, hr, h1]
      rw [e1]
      exact ih b s R h (fun e' hm => he e' (by simp only [List.map_cons]; exact List.mem_cons_of_mem _ hm)) (by simpa [IoEv.moves] using hn)
    · have hcomp := isComplete_frame hp R'
      by_cases hc : b'.used = (frame p).length
      · exact ⟨b', s', by simp [recvLoop, hr, hnn, hcomp, hc]⟩
      · have e1 : recvLoop b s ((.xfer k, fresh) :: es) = recvLoop b' s' es := by simp [recvLoop, hr, hnn, hcomp, hc]
        rw [e1]
        have hlt : b'.used < (frame p).length := by have := R'.usedF; omega
        refine ih b' s' R' hlt (fun e' hm => he e' (by simp only [List.map_cons]; exact List.mem_cons_of_mem _ hm)) ?_
        simp only [List.map_cons, List.filter_cons, IoEv.moves, if_true, List.length_cons] at hn
        omega

theorem complete_content {p rest : List UInt8} {b : Buf} {s : Stream} (R : RInv (frame p) rest b s)
    (h : b.used = (frame p).length) : (getData b 0).2 = .data p ∧ s.data = rest ∧ bytes b = p := by
  have hfl := frame_length p
  have hbytes : bytes b = p := by
    unfold bytes
    rw [R.mode, R.pre, h, List.take_length]
    simp [pfxLen, frame, le32]
  have I : Inv b := ⟨R.usedM, by rw [R.mode]; simp only [pfxLen]; have := R.big (by omega); omega,
    .inr (by rw [R.mode]; simp only [pfxLen]; omega)⟩
  refine ⟨?_, ?_, hbytes⟩
  · obtain ⟨-, -, -, -, -, hc⟩ := getData_spec I (r := (getData b 0).2) (b' := (getData b 0).1) (p := 0) rfl
    rcases hc with ⟨-, -, hlt⟩ | ⟨hd, -⟩
    · omega
    · rw [hd, hbytes]; rfl
  · rw [R.str, h, List.drop_length]; rfl

theorem reset_fields {b : Buf} {fresh} (hr : pfxLen b.mode ≤ b.mem.length)
    (hl : b.limit = 0 ∨ b.size + pfxLen b.mode ≤ b.limit) :
    (reset b fresh).1.mode = b.mode ∧ (reset b fresh).1.step = b.step ∧ (reset b fresh).1.limit = b.limit ∧
    (reset b fresh).1.size = b.size ∧ (reset b fresh).1.used = 0 ∧ (reset b fresh).1.markSet = false ∧
    (reset b fresh).1.mem.length = b.size + pfxLen b.mode := by
  obtain ⟨-, h1, -, h2, h3, h4, h5, h6, h7⟩ := reset_spec (b' := (reset b fresh).1) (r := (reset b fresh).2) hr rfl
  rcases h4 with ⟨-, h4⟩ | ⟨-, h8, h9, -⟩
  · exact ⟨h1, h6, h7, h5, h3, h2, h4⟩
  · omega

/-- What a message must satisfy to be received by a buffer with this size and limit. -/
def Fits (b : Buf) (q : List UInt8) : Prop :=
  q.length + 4 < 2 ^ 32 ∧ b.size ≤ q.length ∧ (b.limit = 0 ∨ q.length + 4 ≤ b.limit)

/-- The reader is somewhere in the first message of `todo`, or idle behind the last one. -/
def PInv (todo : List (List UInt8)) (b : Buf) (s : Stream) : Prop :=
  match todo with
  | [] => b.used = 0 ∧ s.data = [] ∧ b.mode = .prefixed
  | p :: t => RInv (frame p) (frames t) b s ∧ b.used < (frame p).length

theorem pump_spec (evs : List (IoEv × (Nat → UInt8))) : ∀ (todo got : List (List UInt8)) (b : Buf) (s : Stream),
    PInv todo b s → (∀ q ∈ todo, Fits b q) →
    ∃ pre post, todo = pre ++ post ∧ (pump b s got evs).1 = got ++ pre ∧
      ∃ u, (pump b s got evs).2.2.data = (frames post).drop u ∧ (∀ q t, post = q :: t → u < (frame q).length) := by
  induction evs with
  | nil =>
    intro todo got b s P _
    refine ⟨[], todo, rfl, by simp [pump], ?_⟩
    cases todo with
    | nil => exact ⟨0, by simpa [pump, frames] using P.2.1, by simp⟩
    | cons p t =>
      refine ⟨b.used, ?_, ?_⟩
      · show s.data = _
        rw [P.1.str]
        show _ = (frame p ++ frames t).drop b.used
        rw [List.drop_append_of_le_length (by have := P.2; omega)]
      · intro q t' h
        cases h
        exact P.2
  | cons ev es ih =>
    obtain ⟨ev, fresh⟩ := ev
    intro todo got b s P F
    cases todo with
    | nil =>
      obtain ⟨hu, hd, hm⟩ := P
      have key : ∀ e, read b s ev fresh = (b, s, .error e) ∨ read b s ev fresh = (b, s, .ok 0) →
          ∃ pre post, ([] : List (List UInt8)) = pre ++ post ∧ (pump b s got ((ev, fresh) :: es)).1 = got ++ pre ∧
          ∃ u, (pump b s got ((ev, fresh) :: es)).2.2.data = (frames post).drop u ∧
            (∀ q t, post = q :: t → u < (frame q).length) := by
        intro e h
        rcases h with h | h
        · by_cases he : e = .EAGAIN ∨ e = .EINTR
          · have e1 : pump b s got ((ev, fresh) :: es) = pump b s got es := by simp [pump, h, he]
            rw [e1]
            exact ih [] got b s ⟨hu, hd, hm⟩ (by simp)
          · have e1 : pump b s got ((ev, fresh) :: es) = (got, b, s) := by simp [pump, h, he]
            rw [e1]
            exact ⟨[], [], rfl, by simp, 0, by simpa [frames] using hd, by simp⟩
        · have e1 : pump b s got ((ev, fresh) :: es) = (got, b, s) := by simp [pump, h]
          rw [e1]
          exact ⟨[], [], rfl, by simp, 0, by simpa [frames] using hd, by simp⟩
      have hcase : ∃ e, read b s ev fresh = (b, s, .error e) ∨ read b s ev fresh = (b, s, .ok 0) := by
        have hc : isComplete b = false := by simp [isComplete, hm, hu]
        have hz : expected b = 0 := by simp [expected, hu]
        unfold read
        simp only [hm, readPrefixed, hc]
        cases ev with
        | fail e => exact ⟨e, .inl (by simp [sysRead])⟩
        | xfer k =>
          by_cases h1 : b.mem.length - b.used = 0
          · exact ⟨.EIO, .inr (by simp only [sysRead, h1, if_true]; simp [hz, hu])⟩
          · cases hcl : s.closed
            · exact ⟨.EAGAIN, .inl (by simp [sysRead, h1, hd, hcl])⟩
            · exact ⟨.EIO, .inr (by simp [sysRead, h1, hd, hcl, hz, hu])⟩
      obtain ⟨e, he⟩ := hcase
      exact key e he
    | cons p t =>
      obtain ⟨R, hlt⟩ := P
      obtain ⟨hp, hsz, hlim⟩ := F p (by simp)
      rcases read_step hp R hlt ev fresh with ⟨e, rfl, hr⟩ | ⟨k, b', s', n, rfl, hr, hn, hu, R', -, hbs, hbl⟩
      · by_cases he : e = .EAGAIN ∨ e = .EINTR
        · have e1 : pump b s got ((.fail e, fresh) :: es) = pump b s got es := by simp [pump, hr, he]
          rw [e1]
          exact ih (p :: t) got b s ⟨R, hlt⟩ F
        · have e1 : pump b s got ((.fail e, fresh) :: es) = (got, b, s) := by simp [pump, hr, he]
          rw [e1]
          refine ⟨[], p :: t, rfl, by simp, b.used, ?_, ?_⟩
          · show s.data = _
            rw [R.str]
            show _ = (frame p ++ frames t).drop b.used
            rw [List.drop_append_of_le_length (by omega)]
          · intro q t' h; cases h; exact hlt
      · have hcomp := isComplete_frame hp R'
        have hfl := frame_length p
        by_cases hc : b'.used = (frame p).length
        · obtain ⟨hd, hrest, -⟩ := complete_content R' hc
          have e1 : pump b s got ((.xfer k, fresh) :: es) = pump (reset b' fresh).1 s' (got ++ [p]) es := by
            simp [pump, hr, hn, hcomp, hc, hd]
          rw [e1]
          have hml := R'.big (by omega)
          obtain ⟨r1, r2, r3, r4, r5, r6, r7⟩ := reset_fields (b := b') (fresh := fresh)
            (by rw [R'.mode]; simp only [pfxLen]; omega)
            (by rw [R'.mode, hbl, hbs]; simp only [pfxLen]; rcases hlim with h | h
                · exact .inl h
                · exact .inr (by omega))
          have F' : ∀ q ∈ t, Fits (reset b' fresh).1 q := by
            intro q hq
            obtain ⟨f1, f2, f3⟩ := F q (List.mem_cons_of_mem _ hq)
            exact ⟨f1, by rw [r4, hbs]; exact f2, by rw [r3, hbl]; exact f3⟩
          have P' : PInv t (reset b' fresh).1 s' := by
            cases t with
            | nil => exact ⟨r5, by simpa [frames] using hrest, by rw [r1]; exact R'.mode⟩
            | cons q t =>
              obtain ⟨f1, f2, f3⟩ := F' q (by simp)
              refine ⟨rinv_init (by rw [r1]; exact R'.mode) (by rw [r2]; exact R'.step) f3 r5 ?_ f2 hrest r6, ?_⟩
              · rw [r7, r4, R'.mode]; rfl
              · rw [r5, frame_length]; omega
          obtain ⟨pre, post, g1, g2, g3⟩ := ih t (got ++ [p]) _ s' P' F'
          exact ⟨p :: pre, post, by rw [g1]; rfl, by rw [g2]; simp, g3⟩
        · have e1 : pump b s got ((.xfer k, fresh) :: es) = pump b' s' got es := by simp [pump, hr, hn, hcomp, hc]
          rw [e1]
          have hlt' : b'.used < (frame p).length := by have := R'.usedF; omega
          refine ih (p :: t) got b' s' ⟨R', hlt'⟩ ?_
          intro q hq
          obtain ⟨f1, f2, f3⟩ := F q hq
          exact ⟨f1, by rw [hbs]; exact f2, by rw [hbl]; exact f3⟩

/-- Enough productive reads without a hard error deliver every message. -/
theorem pump_completes (evs : List (IoEv × (Nat → UInt8))) : ∀ (todo got : List (List UInt8)) (b : Buf) (s : Stream),
    PInv todo b s → (∀ q ∈ todo, Fits b q) →
    (∀ e, .fail e ∈ evs.map Prod.fst → e = .EAGAIN ∨ e = .EINTR) →
    (frames todo).length - b.used ≤ ((evs.map Prod.fst).filter IoEv.moves).length →
    (pump b s got evs).1 = got ++ todo := by
  induction evs with
  | nil =>
    intro todo got b s P F _ hn
    cases todo with
    | nil => simp [pump]
    | cons p t =>
      have := P.2
      simp [frames] at hn
      omega
  | cons ev es ih =>
    obtain ⟨ev, fresh⟩ := ev
    intro todo got b s P F he hn
    cases todo with
    | nil =>
      obtain ⟨pre, post, h1, h2, -⟩ := pump_spec ((ev, fresh) :: es) [] got b s P F
      have : pre = [] := by
        cases pre with
        | nil => rfl
        | cons _ _ => cases h1
      rw [h2, this]
    | cons p t =>
      obtain ⟨R, hlt⟩ := P
      obtain ⟨hp, hsz, hlim⟩ := F p (by simp)
      have he' : ∀ e, .fail e ∈ es.map Prod.fst → e = .EAGAIN ∨ e = .EINTR :=
        fun e hm => he e (by simp only [List.map_cons]; exact List.mem_cons_of_mem _ hm)
      rcases read_step hp R hlt ev fresh with ⟨e, rfl, hr⟩ | ⟨k, b', s', n, rfl, hr, hn', hu, R', -, hbs, hbl⟩
      · have h1 := he e (by simp)
        have e1 : pump b s got ((.fail e, fresh) :: es) = pump b s got es := by simp [pump, hr, h1]
        rw [e1]
        exact ih (p :: t) got b s ⟨R, hlt⟩ F he' (by simpa [IoEv.moves] using hn)
      · have hcomp := isComplete_frame hp R'
        have hfl := frame_length p
        simp only [List.map_cons, List.filter_cons, IoEv.moves, if_true, List.length_cons] at hn
        have hft : (frames (p :: t)).length = (frame p).length + (frames t).length := by simp [frames]
        by_cases hc : b'.used = (frame p).length
        · obtain ⟨hd, hrest, -⟩ := complete_content R' hc
          have e1 : pump b s got ((.xfer k, fresh) :: es) = pump (reset b' fresh).1 s' (got ++ [p]) es := by
            simp [pump, hr, hn', hcomp, hc, hd]
          rw [e1]
          have hml := R'.big (by omega)
          obtain ⟨r1, r2, r3, r4, r5, r6, r7⟩ := reset_fields (b := b') (fresh := fresh)
            (by rw [R'.mode]; simp only [pfxLen]; omega)
            (by rw [R'.mode, hbl, hbs]; simp only [pfxLen]; rcases hlim with h | h
                · exact .inl h
                · exact .inr (by omega))
          have F' : ∀ q ∈ t, Fits (reset b' fresh).1 q := by
            intro q hq
            obtain ⟨f1, f2, f3⟩ := F q (List.mem_cons_of_mem _ hq)
            exact ⟨f1, by rw [r4, hbs]; exact f2, by rw [r3, hbl]; exact f3⟩
          have P' : PInv t (reset b' fresh).1 s' := by
            cases t with
            | nil => exact ⟨r5, by simpa [frames] using hrest, by rw [r1]; exact R'.mode⟩
            | cons q t =>
              obtain ⟨f1, f2, f3⟩ := F' q (by simp)
              refine ⟨rinv_init (by rw [r1]; exact R'.mode) (by rw [r2]; exact R'.step) f3 r5 ?_ f2 hrest r6, ?_⟩
              · rw [r7, r4, R'.mode]; rfl
              · rw [r5, frame_length]; omega
          rw [ih t (got ++ [p]) _ s' P' F' he' (by rw [r5]; omega)]
          simp
        · have e1 : pump b s got ((.xfer k, fresh) :: es) = pump b' s' got es := by simp [pump, hr, hn', hcomp, hc]
          rw [e1]
          have hlt' : b'.used < (frame p).length := by have := R'.usedF; omega
          refine ih (p :: t) got b' s' ⟨R', hlt'⟩ ?_ he' (by omega)
          intro q hq
          obtain ⟨f1, f2, f3⟩ := F q hq
          exact ⟨f1, by rw [hbs]; exact f2, by rw [hbl]; exact f3⟩

theorem complete_inv {p rest : List UInt8} {b : Buf} {s : Stream} (R : RInv (frame p) rest b s)
    (h : b.used = (frame p).length) : Inv b := by
  have hfl := frame_length p
  exact ⟨R.usedM, by rw [R.mode]; simp only [pfxLen]; have := R.big (by omega); omega,
    .inr (by rw [R.mode]; simp only [pfxLen]; omega)⟩

theorem fresh_fields {size limit : Nat} {fresh b} (hb : create .prefixed size 1 limit fresh = .ok b) :
    b.mode = .prefixed ∧ b.step = 1 ∧ b.limit = limit ∧ b.size = size ∧ b.used = 0 ∧ b.markSet = false ∧
      b.mem.length = b.size + 4 := by
  unfold create at hb
  split at hb
  · cases hb
  · cases hb
  · dsimp only at hb
    rw [realloc_force] at hb
    dsimp only at hb
    by_cases h : limit ≠ 0 ∧ size + pfxLen .prefixed > limit
    · simp [h] at hb
    · simp only [h, if_false] at hb
      cases hb
      exact ⟨rfl, rfl, rfl, rfl, rfl, rfl, resize_length _ _ _⟩

theorem fresh_reader {p rest : List UInt8} {size limit : Nat} {fresh b} {s : Stream}
    (hb : create .prefixed size 1 limit fresh = .ok b) (hsz : size ≤ p.length)
    (hl : limit = 0 ∨ p.length + 4 ≤ limit) (hd : s.data = frame p ++ rest) :
    RInv (frame p) rest b s ∧ b.used = 0 := by
  obtain ⟨h1, h2, h3, h4, h5, h6, h7⟩ := fresh_fields hb
  exact ⟨rinv_init h1 h2 (by rw [h3]; exact hl) h5 h7 (by rw [h4]; exact hsz) hd h6, h5⟩

theorem fresh_pump {ps : List (List UInt8)} {size limit : Nat} {fresh b} {s : Stream}
    (hb : create .prefixed size 1 limit fresh = .ok b)
    (hps : ∀ p ∈ ps, p.length + 4 < 2 ^ 32 ∧ size ≤ p.length ∧ (limit = 0 ∨ p.length + 4 ≤ limit))
    (hd : s.data = frames ps) : PInv ps b s ∧ ∀ q ∈ ps, Fits b q := by
  obtain ⟨h1, h2, h3, h4, h5, h6, h7⟩ := fresh_fields hb
  refine ⟨?_, fun q hq => by unfold Fits; rw [h3, h4]; exact hps q hq⟩
  cases ps with
  | nil => exact ⟨h5, by simpa [frames] using hd, h1⟩
  | cons p t =>
    obtain ⟨f1, f2, f3⟩ := hps p (by simp)
    obtain ⟨R, hu⟩ := fresh_reader (rest := frames t) (p := p) hb f2 f3 hd
    exact ⟨R, by rw [hu, frame_length]; omega⟩

/-- The stream a loop ends with. -/
def ROut.stream : ROut → Stream
  | .complete _ s => s
  | .eof _ s => s
  | .failed _ _ s => s
  | .pending _ s => s

theorem recvLoop_closed {p rest : List UInt8} (hp : p.length + 4 < 2 ^ 32) (evs : List (IoEv × (Nat → UInt8))) :
    ∀ (b : Buf) (s : Stream), RInv (frame p) rest b s → b.used < (frame p).length →
    (recvLoop b s evs).stream.closed = s.closed := by
  induction evs with
  | nil => intro b s _ _; rfl
  | cons ev es ih =>
    obtain ⟨ev, fresh⟩ := ev
    intro b s R h
    rcases read_step hp R h ev fresh with ⟨e, rfl, hr⟩ | ⟨k, b', s', n, rfl, hr, hn, hu, R', hcl, -⟩
    · by_cases he : e = .EAGAIN ∨ e = .EINTR
      · have e1 : recvLoop b s ((.fail e, fresh) :: es) = recvLoop b s es := by simp [recvLoop, hr, he]
        rw [e1]; exact ih b s R h
      · have e1 : recvLoop b s ((.fail e, fresh) :: es) = .failed e b s := by simp [recvLoop, hr, he]
        rw [e1]; rfl
    · have hcomp := isComplete_frame hp R'
      by_cases hc : b'.used = (frame p).length
      · have e1 : recvLoop b s ((.xfer k, fresh) :: es) = .complete b' s' := by simp [recvLoop, hr, hn, hcomp, hc]
        rw [e1]; exact hcl
      · have e1 : recvLoop b s ((.xfer k, fresh) :: es) = recvLoop b' s' es := by simp [recvLoop, hr, hn, hcomp, hc]
        rw [e1, ih b' s' R' (by have := R'.usedF; omega)]; exact hcl

/-! ### A stream that ends within a message -/

/-- what a read does depends on the stream only through what read(2) returns -/
theorem readPrefixed_congr {b : Buf} {s t : Stream} {ev ev' : IoEv} {fresh}
    (h : sysRead s (b.mem.length - b.used) ev = sysRead t (b.mem.length - b.used) ev') :
    (readPrefixed b s ev fresh).1 = (readPrefixed b t ev' fresh).1 ∧ (readPrefixed b s ev fresh).2.2 = (readPrefixed b t ev' fresh).2.2 ∧
      ∀ n, (readPrefixed b s ev fresh).2.2 = .ok n → (readPrefixed b s ev fresh).2.1 = { s with data := s.data.drop n } := by
  unfold readPrefixed
  rw [h]
  split
  · exact ⟨rfl, rfl, by simp⟩
  · split
    · exact ⟨rfl, rfl, by simp⟩
    · dsimp only
      split
      · split
        · exact ⟨rfl, rfl, by simp⟩
        · exact ⟨rfl, rfl, by intro n hn; cases hn; rfl⟩
      · split
        · split
          · exact ⟨rfl, rfl, by simp⟩
          · split
            · split
              · exact ⟨rfl, rfl, by simp⟩
              · exact ⟨rfl, rfl, by intro n hn; cases hn; rfl⟩
            · exact ⟨rfl, rfl, by intro n hn; cases hn; rfl⟩
        · exact ⟨rfl, rfl, by intro n hn; cases hn; rfl⟩

/-- reading from a stream that ends early is reading less from one that does not -/
theorem sysRead_cut {s : Stream} {miss : List UInt8} {k req : Nat} (hne : s.data ≠ []) :
    sysRead ⟨s.data ++ miss, s.closed⟩ req (.xfer (min k s.data.length)) = sysRead s req (.xfer k) := by
  have hl : 0 < s.data.length := List.length_pos_iff.mpr hne
  unfold sysRead
  dsimp only
  by_cases hr : req = 0
  · rw [if_pos hr, if_pos hr]
  · rw [if_neg hr, if_neg hr, if_neg hne, if_neg (by simp [hne])]
    rw [List.take_append_of_le_length (by omega)]
    congr 1
    rw [List.take_eq_take_iff]
    omega

/-- The reader has consumed a part of the frame, and the stream ends before its end. -/
def TInv (f miss : List UInt8) (b : Buf) (s : Stream) : Prop :=
  miss ≠ [] ∧ s.closed = true ∧ RInv f [] b ⟨s.data ++ miss, true⟩

theorem TInv.lt {f miss : List UInt8} {b : Buf} {s : Stream} (T : TInv f miss b s) : b.used < f.length := by
  obtain ⟨h1, -, R⟩ := T
  have := congrArg List.length R.str
  have h2 := List.length_pos_iff.mpr h1
  simp at this
  omega

theorem trunc_read {p miss : List UInt8} {b : Buf} {s : Stream} (hp : p.length + 4 < 2 ^ 32) (T : TInv (frame p) miss b s)
    (k : Nat) (fresh : Nat → UInt8) :
    (s.data = [] ∧ read b s (.xfer k) fresh = (b, s, if b.used = 0 then .ok 0 else .error .EBADMSG)) ∨
    (s.data ≠ [] ∧ ∃ b' n, read b s (.xfer k) fresh = (b', ⟨s.data.drop n, true⟩, .ok n) ∧ 0 < n ∧ b'.used = b.used + n ∧ n ≤ s.data.length ∧
      TInv (frame p) miss b' ⟨s.data.drop n, true⟩) := by
  have hlt := T.lt
  obtain ⟨hm, hcl, R⟩ := T
  have hfl := frame_length p
  have hnc : isComplete b = false := by rw [isComplete_frame hp R]; simp; omega
  by_cases hd : s.data = []
  · refine .inl ⟨hd, ?_⟩
    have hreq : b.mem.length - b.used ≠ 0 := by
      by_cases h4 : b.used < 4
      · have := (R.small h4).1; omega
      · have := R.big (by omega); omega
    have hs : sysRead s (b.mem.length - b.used) (.xfer k) = .ok [] := by
      unfold sysRead
      simp [hreq, hd, hcl]
    have hex := expected_frame hp R.pre R.usedM
    unfold read
    rw [R.mode]
    simp only [readPrefixed, hnc, hs, Bool.false_eq_true, if_false, List.length_nil, if_true]
    rw [hex]
    by_cases h0 : b.used = 0
    · rw [if_neg (by simp [h0]), if_pos h0]
    · rw [if_neg (c := b.used = 0) h0, if_pos]
      by_cases h4 : b.used ≥ 4
      · rw [if_pos h4]; right; omega
      · rw [if_neg h4]; left; exact ⟨rfl, h0⟩
  · refine .inr ⟨hd, ?_⟩
    rcases read_step hp R hlt (.xfer (min k s.data.length)) fresh with ⟨e, he, -⟩ | ⟨k', b', s', n, -, hr, hn, hu, R', hc', -⟩
    · cases he
    · have hcut := readPrefixed_congr (b := b) (fresh := fresh)
        ((sysRead_cut (req := b.mem.length - b.used) (k := k) (miss := miss) hd).symm)
      have e1 : ∀ (st : Stream) ev, read b st ev fresh = readPrefixed b st ev fresh := by intro st ev; unfold read; rw [R.mode]
      rw [e1] at hr ⊢
      rw [hcl] at hcut
      rw [hr] at hcut
      obtain ⟨c1, c2, c3⟩ := hcut
      have c4 := c3 n c2
      have hs' : s'.data = (s.data ++ miss).drop n := by
        have h1 := R.str
        have h2 := R'.str
        dsimp only at h1
        rw [h2, h1, hu]
        simp
      have hle : n ≤ s.data.length := by
        have hs : sysRead s (b.mem.length - b.used) (.xfer k) ≠ .ok [] ∧ ∀ bs, sysRead s (b.mem.length - b.used) (.xfer k) = .ok bs → bs.length ≤ s.data.length := by
          unfold sysRead
          have hreq : b.mem.length - b.used ≠ 0 := by
            by_cases h4 : b.used < 4
            · have := (R.small h4).1; omega
            · have := R.big (by omega); omega
          simp only [hreq, hd, if_false]
          constructor
          · intro h
            have := congrArg (fun x => match x with | Except.ok l => l.length | .error _ => 0) h
            have hl := List.length_pos_iff.mpr hd
            simp at this
            exact hd this
          · intro bs h; cases h; simp; omega
        have : ∀ bs n, sysRead s (b.mem.length - b.used) (.xfer k) = .ok bs → (readPrefixed b s (.xfer k) fresh).2.2 = .ok n → bs.length = n := by
          intro bs n hbs
          unfold readPrefixed
          rw [hbs]
          intro h
          split at h
          · cases h
          · dsimp only at h
            split at h
            · split at h
              · cases h
              · cases h; assumption
            · split at h
              · split at h
                · cases h
                · split at h
                  · split at h
                    · cases h
                    · cases h; rfl
                  · cases h; rfl
              · cases h; rfl
        cases hsr : sysRead s (b.mem.length - b.used) (.xfer k) with
        | ok bs => rw [← this bs n hsr c2]; exact hs.2 bs hsr
        | error e =>
          exfalso
          have : (readPrefixed b s (.xfer k) fresh).2.2 = .error e := by
            unfold readPrefixed
            rw [hsr]
            simp [hnc]
          rw [this] at c2
          cases c2
      have hR : TInv (frame p) miss b' ⟨s.data.drop n, true⟩ := by
        refine ⟨hm, rfl, ?_⟩
        have e2 : s' = ⟨s.data.drop n ++ miss, true⟩ := by
          rcases s' with ⟨d, c⟩
          dsimp only at hs' hc'
          rw [hs', hc', List.drop_append_of_le_length hle]
        rw [← e2]
        exact R'
      refine ⟨b', n, ?_, hn, hu, hle, hR⟩
      rcases hx : readPrefixed b s (.xfer k) fresh with ⟨x1, x2, x3⟩
      rw [hx] at c1 c2 c4
      dsimp only at c1 c2 c4
      rw [c1, c2, c4]

theorem trunc_fail {p miss : List UInt8} {b : Buf} {s : Stream} (hp : p.length + 4 < 2 ^ 32) (T : TInv (frame p) miss b s)
    (e : Errno) (fresh : Nat → UInt8) : read b s (.fail e) fresh = (b, s, .error e) := by
  have hlt := T.lt
  obtain ⟨hm, hcl, R⟩ := T
  have hnc : isComplete b = false := by rw [isComplete_frame hp R]; simp; omega
  unfold read
  rw [R.mode]
  simp [readPrefixed, hnc, sysRead]

theorem trunc_incomplete {p miss : List UInt8} {b : Buf} {s : Stream} (hp : p.length + 4 < 2 ^ 32) (T : TInv (frame p) miss b s) :
    isComplete b = false := by
  have hlt := T.lt
  rw [isComplete_frame hp T.2.2]
  simp; omega

theorem trunc_loop {p miss : List UInt8} (hp : p.length + 4 < 2 ^ 32) (sched : List (IoEv × (Nat → UInt8))) :
    ∀ (b : Buf) (s : Stream), TInv (frame p) miss b s →
    ((∃ b' left, recvLoop b s sched = .pending b' ⟨left, true⟩ ∧ left <:+ s.data ∧
        ((sched.map Prod.fst).filter IoEv.moves).length ≤ s.data.length) ∨
      ∃ e b' s', recvLoop b s sched = .failed e b' s' ∧
        (e = .EBADMSG ∨ (e ≠ .EAGAIN ∧ e ≠ .EINTR ∧ .fail e ∈ sched.map Prod.fst))) := by
  induction sched with
  | nil =>
    intro b s T
    refine .inl ⟨b, s.data, ?_, List.suffix_rfl, by simp⟩
    have := T.2.1
    rcases s with ⟨d, c⟩
    dsimp only at this
    subst this
    rfl
  | cons ev es ih =>
    obtain ⟨ev, fresh⟩ := ev
    intro b s T
    cases ev with
    | fail e =>
      have hr := trunc_fail hp T e fresh
      by_cases he : e = .EAGAIN ∨ e = .EINTR
      · have e1 : recvLoop b s ((.fail e, fresh) :: es) = recvLoop b s es := by simp [recvLoop, hr, he]
        rw [e1]
        rcases ih b s T with ⟨b', left, h1, h2, h3⟩ | ⟨e', b', s', h1, h2⟩
        · exact .inl ⟨b', left, h1, h2, by simpa [IoEv.moves] using h3⟩
        · refine .inr ⟨e', b', s', h1, ?_⟩
          rcases h2 with h2 | ⟨h2, h3, h4⟩
          · exact .inl h2
          · exact .inr ⟨h2, h3, by simp only [List.map_cons]; exact List.mem_cons_of_mem _ h4⟩
      · exact .inr ⟨e, b, s, by simp [recvLoop, hr, he], .inr ⟨fun h => he (.inl h), fun h => he (.inr h), by simp⟩⟩
    | xfer k =>
      rcases trunc_read hp T k fresh with ⟨hd, hr⟩ | ⟨hd, b', n, hr, hn, hu, hle, T'⟩
      · have hi := trunc_incomplete hp T
        refine .inr ⟨.EBADMSG, b, s, ?_, .inl rfl⟩
        by_cases h0 : b.used = 0
        · rw [if_pos h0] at hr
          simp [recvLoop, hr, hi]
        · rw [if_neg h0] at hr
          simp [recvLoop, hr]
      · have hi := trunc_incomplete hp T'
        have e1 : recvLoop b s ((.xfer k, fresh) :: es) = recvLoop b' ⟨s.data.drop n, true⟩ es := by simp [recvLoop, hr, hn, hi]
        rw [e1]
        rcases ih b' _ T' with ⟨b'', left, h1, h2, h3⟩ | ⟨e', b'', s', h1, h2⟩
        · refine .inl ⟨b'', left, h1, h2.trans (List.drop_suffix _ _), ?_⟩
          simp only [List.map_cons, List.filter_cons, IoEv.moves, if_true, List.length_cons]
          rw [List.length_drop] at h3
          omega
        · refine .inr ⟨e', b'', s', h1, ?_⟩
          rcases h2 with h2 | ⟨h2, h3, h4⟩
          · exact .inl h2
          · exact .inr ⟨h2, h3, by simp only [List.map_cons]; exact List.mem_cons_of_mem _ h4⟩

theorem trunc_many {p miss : List UInt8} (hp : p.length + 4 < 2 ^ 32) (sched : List (IoEv × (Nat → UInt8))) :
    ∀ (b : Buf) (s : Stream), TInv (frame p) miss b s → TInv (frame p) miss (readMany b s sched).1 (readMany b s sched).2.1 := by
  induction sched with
  | nil => intro b s T; exact T
  | cons ev es ih =>
    obtain ⟨ev, fresh⟩ := ev
    intro b s T
    unfold readMany
    dsimp only
    cases ev with
    | fail e => rw [trunc_fail hp T e fresh]; exact ih b s T
    | xfer k =>
      rcases trunc_read hp T k fresh with ⟨hd, hr⟩ | ⟨hd, b', n, hr, hn, hu, hle, T'⟩
      · rw [hr]; exact ih b s T
      · rw [hr]; exact ih b' _ T'

end Sid.LBuf
