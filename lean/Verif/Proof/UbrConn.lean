import Verif.Model.UbrConn
import Verif.Spec.UbrConn
import Verif.Proof.Recv
namespace Sid.Conn
open Sid.LBuf (Buf IoEv Stream PInv Fits)
open Sid.Ifc Sid.Spec.Conn Sid.Spec.Frame

theorem leNat_one (l : List UInt8) (i : Nat) (c : UInt8) (h : l[i]? = some c) : leNat ((l.drop i).take 1) = c.toNat := by
  have hi : i < l.length := by
    rcases Nat.lt_or_ge i l.length with h' | h'
    · exact h'
    · rw [List.getElem?_eq_none h'] at h; cases h
  rw [List.drop_eq_getElem_cons hi]
  rw [List.getElem?_eq_getElem hi] at h
  cases h
  rw [List.take_succ_cons]
  simp [leNat]

/-- model only: a fact about all bytes can be checked -/
theorem forall_u8 {P : UInt8 → Prop} (h : ∀ n, n < 256 → P (UInt8.ofNat n)) (c : UInt8) : P c := by
  have := h c.toNat c.toNat_lt
  rwa [UInt8.ofNat_toNat] at this

theorem hdrOf_some {m : List UInt8} {h : Hdr} (e : hdrOf m = some h) :
    12 ≤ m.length ∧ ∃ p c, m[8]? = some p ∧ m[9]? = some c ∧ h.prot = p.toNat ∧ h.cmd = c.toNat := by
  unfold hdrOf at e
  split at e
  · cases e
  · next hl =>
    have h8 : m[8]? = some (m[8]'(by omega)) := List.getElem?_eq_getElem _
    have h9 : m[9]? = some (m[9]'(by omega)) := List.getElem?_eq_getElem _
    refine ⟨by omega, _, _, h8, h9, ?_, ?_⟩
    · injection e with e; rw [← e]; exact leNat_one _ _ _ h8
    · injection e with e; rw [← e]; exact leNat_one _ _ _ h9

theorem hdrOf_none {m : List UInt8} (e : hdrOf m = none) : m.length < 12 := by
  unfold hdrOf at e
  split at e
  · assumption
  · cases e

theorem getReg_some {c : UInt8} {r : CReg} (h : getReg c.toNat = some r) :
    c ≤ lastCommand ∧ r.importUdev = decide (c = 3 ∨ c = 5) := by
  have hl : c.toNat < clientRegs.length := by
    rcases Nat.lt_or_ge c.toNat clientRegs.length with h' | h'
    · exact h'
    · rw [getReg, List.getElem?_eq_none h'] at h; cases h
  have hl : c.toNat < 11 := hl
  have : ∀ c : UInt8, c.toNat < 11 → c ≤ lastCommand ∧ (getReg c.toNat).map CReg.importUdev = some (decide (c = 3 ∨ c = 5)) :=
    forall_u8 (by decide +kernel)
  obtain ⟨h1, h2⟩ := this c hl
  rw [h] at h2
  exact ⟨h1, by simpa using h2⟩

theorem capable_iff {uid : Option Nat} {c : UInt8} (hc : c ≤ lastCommand) :
    capable uid (sanitized c.toNat) = some (decide (uid = some 0 ∨ c ∈ forAll)) := by
  have : ∀ c : UInt8, c ≤ lastCommand → (rootOnly[sanitized c.toNat]?).map (!·) = some (decide (c ∈ forAll)) := forall_u8 (by decide +kernel)
  unfold capable
  rw [this c hc]
  by_cases hu : uid = some 0 <;> simp [hu]

/-- a request is taken exactly if it is acceptable -/
theorem createCmd_some {uid : Option Nat} {ok b : Bool} {m : List UInt8} (h : createCmd uid ok m = some b) :
    (b = true → Acceptable uid m) ∧ (ok = true → Acceptable uid m → b = true) := by
  unfold createCmd at h
  match hd : hdrOf m with
  | none =>
    have := hdrOf_none hd
    simp only [checkMsg, hd] at h
    cases h
    refine ⟨nofun, fun _ h => ?_⟩
    have := h.1.1; omega
  | some hh =>
    obtain ⟨hl, p, c, h8, h9, hp, hc⟩ := hdrOf_some hd
    simp only [checkMsg, hd] at h
    by_cases hle : c ≤ lastCommand
    · rw [hc, capable_iff hle] at h
      by_cases ha : uid = some 0 ∨ c ∈ forAll
      · simp only [ha, decide_true] at h
        simp only [createChecked, hd] at h
        match hr : getReg hh.cmd with
        | none => simp only [hr] at h; cases h
        | some reg =>
          simp only [hr, initCommand] at h
          rw [hc] at hr
          obtain ⟨-, hi⟩ := getReg_some hr
          by_cases hv : hh.prot = protocol
          · have hpv : p = version := by
              have : p.toNat = version.toNat := by rw [← hp, hv]; rfl
              exact UInt8.toNat_inj.mp this
            simp only [hv, ne_eq, not_true, if_false, importEnv, hi] at h
            have hal : Allowed uid m := ⟨hl, by rw [h8, hpv], c, h9, hle, ha⟩
            by_cases h35 : c = 3 ∨ c = 5
            · simp only [h35, decide_true, if_true] at h
              have hge : ∀ {x}, parseEnv (m.drop 12) = some (.ok x) → 20 < m.length := by
                intro x hx
                unfold parseEnv at hx
                split at hx
                · cases hx
                · next h => rw [List.length_drop] at h; omega
              match hpe : parseEnv (m.drop 12) with
              | none => simp only [hpe] at h; cases h
              | some (.error er) =>
                simp only [hpe] at h
                cases h
                refine ⟨fun h => by simp at h, fun _ h => ?_⟩
                have := h.2 (by rw [h9]; simpa using h35)
                unfold parseEnv at hpe
                rw [if_neg (by rw [List.length_drop]; omega)] at hpe
                simp only [Option.map_eq_some_iff] at hpe
                obtain ⟨_, _, hx⟩ := hpe
                cases hx
              | some (.ok x) =>
                simp only [hpe] at h
                cases h
                exact ⟨fun _ => ⟨hal, fun _ => hge hpe⟩, fun h _ => by simpa using h⟩
            · simp only [h35, decide_false, Bool.false_eq_true, if_false] at h
              cases h
              refine ⟨fun _ => ⟨hal, fun h => ?_⟩, fun h _ => by simpa using h⟩
              rw [h9] at h
              exact absurd (by simpa using h) h35
          · simp only [ne_eq, hv, not_false_eq_true, if_true] at h
            cases h
            refine ⟨nofun, fun _ h => ?_⟩
            have h1 := h.1.2.1
            rw [h8] at h1
            cases h1
            exact absurd hp hv
      · simp only [ha, decide_false] at h
        cases h
        refine ⟨nofun, fun _ h => ?_⟩
        obtain ⟨-, -, c', hc', -, h4⟩ := h.1
        rw [h9] at hc'; cases hc'
        exact absurd h4 ha
    · -- an unknown command: undefined behaviour
      exfalso
      have hnone : getReg hh.cmd = none := by
        rw [hc]
        match hr : getReg c.toNat with
        | none => rfl
        | some r => exact absurd (getReg_some hr).1 hle
      have hcap : capable uid (sanitized hh.cmd) = some true := by
        have : ∀ c : UInt8, ¬ c ≤ lastCommand → sanitized c.toNat = 1 := forall_u8 (by decide +kernel)
        rw [hc, this c hle]
        unfold capable
        split <;> rfl
      rw [hcap] at h
      simp only [createChecked, hd, hnone] at h
      cases h

theorem init_some {inp : Stream} {fresh} {c : Conn} (h : init inp fresh = some c) :
    ∃ b, LBuf.create .prefixed 0 1 0 fresh = .ok b ∧ c = ⟨b, inp, [], [], true⟩ := by
  unfold init at h
  split at h
  · next b hb => injection h with h; exact ⟨b, hb, h.symm⟩
  · cases h

/-! ### whatever the client sends -/

theorem step_started {uid : Option Nat} {c c' : Conn} {e : Ev} (hi : ∀ m ∈ c.started, Acceptable uid m) (h : step uid c e = some c') :
    ∀ m ∈ c'.started, Acceptable uid m := by
  unfold step at h
  split at h
  · cases h; exact hi
  · split at h
    · split at h
      · cases h; exact hi
      · split at h
        · unfold onMessage at h
          split at h
          · split at h
            · cases h
            · next hc =>
              cases h
              intro m hm
              simp only [List.mem_append, List.mem_singleton] at hm
              rcases hm with hm | rfl
              · exact hi m hm
              · exact (createCmd_some hc).1 rfl
            · unfold refused at h
              rw [Option.map_eq_some_iff] at h
              obtain ⟨r, -, rfl⟩ := h
              split <;> exact hi
          · cases h; exact hi
        · cases h; exact hi
    · split at h <;> (cases h; exact hi)

theorem run_started {uid : Option Nat} {l : List Ev} {c c' : Conn} (hi : ∀ m ∈ c.started, Acceptable uid m) (h : run uid c l = some c') :
    ∀ m ∈ c'.started, Acceptable uid m := by
  induction l generalizing c with
  | nil => cases h; exact hi
  | cons e l ih =>
    simp only [run] at h
    match hs : step uid c e, h with
    | some d, h => exact ih (step_started hi hs) h

/-! ### messages sent one after the other -/

/-- the refusal of a message that has a header writes nothing -/
theorem replyFailure_spec {b : Buf} {p : List UInt8} {ws : List IoEv} {fresh : Nat → UInt8} (hu : b.used = p.length + 4)
    (hm : b.mem.length = p.length + 4) (hp : b.mem.drop 4 = p) (hmode : b.mode = .prefixed) (hmark : b.markSet = false) :
    (p.length < 12 → replyFailure (LBuf.getData b 0).1 ws fresh = none) ∧
    (∀ r, replyFailure (LBuf.getData b 0).1 ws fresh = some r → 12 ≤ p.length ∧ r.2.1 = [] ∧ r.1.mode = .prefixed ∧ r.1.step = b.step ∧
      r.1.size = b.size ∧ r.1.limit = b.limit ∧ 4 ≤ r.1.mem.length) := by
  have g1 : (LBuf.getData b 0).1 = { b with markSet := true, markPos := 0 } := by simp [LBuf.getData, hmark]
  rw [g1]
  have g2 : (LBuf.getData { b with markSet := true, markPos := 0 } 0).1 = { b with markSet := true, markPos := 0 } := by
    simp [LBuf.getData]
  unfold replyFailure
  rw [g2]
  simp only [hp]
  constructor
  · intro hl
    have : hdrOf p = none := by unfold hdrOf; rw [if_pos hl]
    rw [this]
  · intro r hr
    match hd : hdrOf p with
    | none => rw [hd] at hr; cases hr
    | some h =>
      rw [hd] at hr
      have hl := (hdrOf_some hd).1
      have hc : LBuf.count { b with markSet := true, markPos := 0 } = p.length := by
        simp only [LBuf.count, hmode, hu]
        rw [if_neg (by omega), if_neg (by omega)]; omega
      have hrel : (LBuf.release { b with markSet := true, markPos := 0 } 0 false true).1 = { b with markSet := false, markPos := 0, used := 4 } := by
        unfold LBuf.release
        rw [hc]
        rw [if_neg (by omega), if_neg (by omega)]
        simp [LBuf.releaseAt, hmode, LBuf.pfxLen]
      dsimp only at hr
      rw [hrel] at hr
      split at hr
      · have hlen : (failureHdr h.prot).length = 12 := by simp [failureHdr, Hdr.bytes, leBytes]
        have hadd : ∃ b', LBuf.add { b with markSet := false, markPos := 0, used := 4 } (failureHdr h.prot) false fresh = (b', .pos 0) ∧
            b'.mode = b.mode ∧ b'.step = b.step ∧ b'.size = b.size ∧ b'.limit = b.limit ∧ 4 ≤ b'.mem.length := by
          unfold LBuf.add
          rw [if_neg (by simp)]
          simp only [LBuf.startOff, LBuf.count, hmode]
          have hre : LBuf.realloc { b with markSet := false, markPos := 0, used := 4 }
              ((if (4 : Nat) = 0 then LBuf.pfxLen .prefixed else 4) + (failureHdr h.prot).length) false fresh =
              .ok { b with markSet := false, markPos := 0, used := 4 } := by
            unfold LBuf.realloc
            rw [hlen]
            simp only [show ¬ (4 : Nat) = 0 by omega, if_false]
            rw [if_pos (by simp; omega)]
          rw [hmode] at hre
          rw [hre]
          refine ⟨_, rfl, rfl, rfl, rfl, rfl, ?_⟩
          · simp only [LBuf.setMark, Bool.false_eq_true, if_false, LBuf.store, List.length_append, List.length_take, List.length_drop, hlen]
            omega
        obtain ⟨b', e1, e2, e3, e4, e5, e6⟩ := hadd
        unfold answer at hr
        rw [e1] at hr
        cases hr
        exact ⟨hl, rfl, by rw [e2]; exact hmode, e3, e4, e5, e6⟩
      · cases hr
        exact ⟨hl, rfl, hmode, rfl, rfl, rfl, by show 4 ≤ b.mem.length; omega⟩

/-- the messages handled so far -/
structure Framed (uid : Option Nat) (ps : List (List UInt8)) (ok : Bool) (c : Conn) : Prop where
  out : c.out = []
  ex : ∃ done todo, ps = done ++ todo ∧ c.started.Sublist done ∧ (∀ m ∈ done, 12 ≤ m.length) ∧
    (ok = true → c.started = done.filter fun m => decide (Acceptable uid m)) ∧
    (c.served = true → PInv todo c.buf c.inp ∧ ∀ q ∈ todo, Fits c.buf q)

theorem step_framed {uid : Option Nat} {ps : List (List UInt8)} {ok : Bool} {c c' : Conn} {e : Ev} (hi : Framed uid ps ok c)
    (hok : ok = true → e.ok = true) (h : step uid c e = some c') : Framed uid ps ok c' := by
  obtain ⟨done, todo, hps, hsub, hlen, hst, hP⟩ := hi.ex
  unfold step at h
  split at h
  · cases h; exact hi
  · next hs =>
    simp only [Bool.not_eq_true', Bool.not_eq_false] at hs
    obtain ⟨P, F⟩ := hP hs
    rcases LBuf.recv_step P F e.io e.fresh with ⟨er, hr⟩ | ⟨ht, hr⟩ | ⟨b', s', n, hr, hn, hc, P', F'⟩ |
        ⟨p, t, b', s', n, rfl, hr, hn, hc, hu, hm, hd, hp, hmode, hstep, hsz, hlim, hmark, hnext⟩
    · rw [hr] at h
      dsimp only at h
      split at h
      · cases h; exact ⟨hi.out, done, todo, hps, hsub, hlen, hst, fun _ => ⟨P, F⟩⟩
      · cases h; exact ⟨hi.out, done, todo, hps, hsub, hlen, hst, nofun⟩
    · rw [hr] at h
      dsimp only at h
      rw [if_pos rfl] at h
      cases h; exact ⟨hi.out, done, todo, hps, hsub, hlen, hst, nofun⟩
    · rw [hr] at h
      dsimp only at h
      rw [if_neg (by omega), if_neg (by simp [hc])] at h
      cases h; exact ⟨hi.out, done, todo, hps, hsub, hlen, hst, fun _ => ⟨P', F'⟩⟩
    · rw [hr] at h
      dsimp only at h
      rw [if_neg (by omega), if_pos hc] at h
      have hg : LBuf.getData b' 0 = ((LBuf.getData b' 0).1, .data p) := by rw [← hd]
      have hg1 : (LBuf.getData b' 0).1 = { b' with markSet := true, markPos := 0 } := by simp [LBuf.getData, hmark]
      unfold onMessage at h
      rw [hg] at h
      dsimp only at h
      have hps' : ps = (done ++ [p]) ++ t := by rw [hps]; simp
      match hcr : createCmd uid e.ok p with
      | none => rw [hcr] at h; cases h
      | some true =>
        rw [hcr] at h
        cases h
        have hacc := (createCmd_some hcr).1 rfl
        refine ⟨hi.out, done ++ [p], t, hps', hsub.append (List.Sublist.refl _), ?_, ?_, fun _ => ?_⟩
        · intro m hm
          simp only [List.mem_append, List.mem_singleton] at hm
          rcases hm with hm | rfl
          · exact hlen m hm
          · exact hacc.1.1
        · intro ho
          show c.started ++ [p] = _
          rw [List.filter_append, ← hst ho, List.filter_cons, if_pos (by simpa using hacc)]
          rfl
        · rw [hg1]
          exact hnext _ hmode hstep hsz hlim (by show 4 ≤ b'.mem.length; omega)
      | some false =>
        rw [hcr] at h
        dsimp only at h
        unfold refused at h
        rw [Option.map_eq_some_iff] at h
        obtain ⟨r, hrf, rfl⟩ := h
        obtain ⟨k1, k2, k3, k4, k5, k6, k7⟩ := (replyFailure_spec hu hm hp hmode hmark).2 r hrf
        have hl : ∀ m ∈ done ++ [p], 12 ≤ m.length := by
          intro m hm
          simp only [List.mem_append, List.mem_singleton] at hm
          rcases hm with hm | rfl
          · exact hlen m hm
          · exact k1
        have hs' : c.started.Sublist (done ++ [p]) := hsub.trans (List.sublist_append_left _ _)
        have hf : ok = true → c.started = (done ++ [p]).filter fun m => decide (Acceptable uid m) := by
          intro ho
          have hna : ¬ Acceptable uid p := fun ha => by have := (createCmd_some hcr).2 (hok ho) ha; cases this
          rw [List.filter_append, ← hst ho, List.filter_cons, if_neg (by simpa using hna)]
          simp
        split
        · refine ⟨?_, done ++ [p], t, hps', hs', hl, hf, fun _ => ?_⟩
          · show c.out ++ r.2.1 = []
            rw [hi.out, k2]; rfl
          · exact hnext _ k3 (by rw [k4]; exact hstep) (by rw [k5]; exact hsz) (by rw [k6]; exact hlim) k7
        · refine ⟨?_, done ++ [p], t, hps', hs', hl, hf, nofun⟩
          show c.out ++ r.2.1 = []
          rw [hi.out, k2]; rfl

theorem run_framed {uid : Option Nat} {ps : List (List UInt8)} {ok : Bool} {l : List Ev} {c c' : Conn} (hi : Framed uid ps ok c)
    (hok : ok = true → ∀ e ∈ l, e.ok = true) (h : run uid c l = some c') : Framed uid ps ok c' := by
  induction l generalizing c with
  | nil => cases h; exact hi
  | cons e l ih =>
    simp only [run] at h
    match hs : step uid c e, h with
    | some d, h => exact ih (step_framed hi (fun ho => hok ho e (by simp)) hs) (fun ho x hx => hok ho x (List.mem_cons_of_mem _ hx)) h

theorem init_framed {uid : Option Nat} {ps : List (List UInt8)} {ok closed : Bool} {fresh : Nat → UInt8} {c : Conn}
    (hps : ∀ p ∈ ps, p.length + 4 < 2 ^ 32) (h : init ⟨frames ps, closed⟩ fresh = some c) : Framed uid ps ok c := by
  obtain ⟨b, hb, rfl⟩ := init_some h
  refine ⟨rfl, [], ps, rfl, List.Sublist.refl _, nofun, fun _ => rfl, fun _ => ?_⟩
  exact LBuf.fresh_pump hb (fun p hp => ⟨hps p hp, Nat.zero_le _, Or.inl rfl⟩) rfl

end Sid.Conn
